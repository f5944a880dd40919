import Verif.Model.PyProc
import Verif.Model.PySb

/-!
# Model of the computations of the Streamlit front end (`view/`)

Simplifications:
* `st.session_state` is a record of partial functions from keys to values, one for each type of widget. A missing key raises `KeyError`
  (`AttributeError` when it is read as an attribute, which happens only for keys that are always there).
* `float` on a string and scipy's and sympy's parts are arguments.
* A `defaultdict` with the two lists `Hmag` and `frequency`, to which entries are appended together, is a list of pairs.
* numpy's float16 is not rounded. Progress bars, messages and plots are left out.
* The contents of an uploaded file are a string.
-/

namespace View
variable {T : Type} [Scalar T]

/-- `st.session_state`; `N` is `st.session_state.N`. -/
structure Session (T : Type) where
  N : Nat
  /-- numbers -/
  num : String → Option T
  /-- integers -/
  count : String → Option Nat
  /-- texts and selections -/
  text : String → Option String
  /-- check boxes -/
  flag : String → Option Bool

/-- `st.session_state[key]`. -/
def get {α : Type} (f : String → Option α) (key : String) : Except Err α :=
  match f key with
  | some v => .ok v
  | none => .error .keyError

/-- `f"{name}{i}"`. -/
def key (name : String) (i : Nat) : String := name ++ toString i

/-! ## The widgets -/

/-- streamlit_app.py:31-111, the numbers of one layer. -/
def layerNumbers (i : Nat) : List String :=
  [key "Ms" i, key "K" i, key "alpha" i, key "thickness" i, key "width" i, key "length" i, key "theta_K" i, key "phi_K" i]

/-- streamlit_app.py:28-273, the keys of the numbers of the spectrum page with `N` layers. -/
def spectrumNumbers (N : Nat) : List String :=
  (List.range N).flatMap layerNumbers ++ (List.range (N - 1)).map (key "J") ++
    ["Hmin", "Hmax", "int_step", "fmin", "fmax", "fstep", "Hoex_mag", "Hoe_mag"]

/-- streamlit_app.py:113-199, the keys of the integers of the spectrum page. -/
def spectrumCounts : List String := ["Hsteps", "sim_time", "max_freq", "n_iters", "n_suggestions"]

/-- autofit.py:83-88 and streamlit_app.py:205-209, the parameters of a fit with `N` layers. -/
def fitParams (N : Nat) : List (String × Nat) :=
  (List.range N).flatMap fun i => (["Ms", "K", "J"].filter fun p => ¬ (p = "J" ∧ N ≤ i + 1)).map fun p => (p, i)

/-- streamlit_app.py:114-289, the keys of the texts and selections of the spectrum page. -/
def spectrumTexts (N : Nat) : List String :=
  ["H_axis", "res_type", "Hoex", "Hoeaxis"] ++ (fitParams N).flatMap fun p => [key ("low_" ++ p.1) p.2, key ("up_" ++ p.1) p.2]

/-- streamlit_app.py:226, the keys of the check boxes of the spectrum page. -/
def spectrumFlags (N : Nat) : List String := (fitParams N).map fun p => key ("check_" ++ p.1) p.2

/-- domain.py:100-195, the keys of the numbers of the domain page with `N` domains. -/
def domainNumbers (N : Nat) : List String :=
  ((List.range N).flatMap fun i => [key "K" i, key "area" i, key "theta_K" i, key "phi_K" i]) ++
    ["Hmin", "Hmax", "int_step", "Ms_shared", "thickness_shared", "alpha_shared"]

/-- domain.py:139-170, the keys of the integers of the domain page. -/
def domainCounts : List String := ["Hsteps", "sim_time", "last_N"]

/-! ## Axes -/

/-- simulation_fns.py:68-82, `get_axis_cvector`. -/
def axisVector (axis : String) : Except Err (CVec T) :=
  if axis = "x" then .ok ⟨1, 0, 0⟩
  else if axis = "y" then .ok ⟨0, 1, 0⟩
  else if axis = "z" then .ok ⟨0, 0, 1⟩
  else if axis = "xy" then .ok ⟨1, 1, 0⟩
  else if axis = "xz" then .ok ⟨1, 0, 1⟩
  else if axis = "yz" then .ok ⟨0, 1, 1⟩
  else .error .valueError

/-- simulation_fns.py:85-93, `get_axis`. -/
def getAxis (axis : String) : Except Err Axis :=
  if axis = "x" then .ok .xaxis
  else if axis = "y" then .ok .yaxis
  else if axis = "z" then .ok .zaxis
  else .error .valueError

/-- simulation_fns.py:96-111, `get_axis_angles`: (theta, phi) in degrees. -/
def axisAngles (axis : String) : Except Err (T × T) :=
  if axis = "x" then .ok (90, 0)
  else if axis = "y" then .ok (90, 90)
  else if axis = "z" then .ok (0, 0)
  else if axis = "xy" then .ok (90, 45)
  else if axis = "xz" then .ok (45, 0)
  else if axis = "yz" then .ok (45, 90)
  else .error .valueError

/-! ## Junctions -/

/-- simulation_fns.py:16 and 39. -/
def thinFilm : Tensor T := ⟨⟨0, 0, 0⟩, ⟨0, 0, 0⟩, ⟨0, 0, 1⟩⟩

/-- simulation_fns.py:15-34, `create_single_domain`; the random sources of the layer are given. -/
def createDomain (s : Session T) (i : Nat) (gauss : Nat → T) (alphaSrc : Nat → Axis → Nat → Nat → T) : Except Err (Layer T) := do
  let theta ← get s.num (key "theta_K" i)
  let phi ← get s.num (key "phi_K" i)
  let dir := FieldScan.angle2vector theta phi 1
  let Ms ← get s.num "Ms_shared"
  let thickness ← get s.num "thickness_shared"
  let alpha ← get s.num "alpha_shared"
  let layer ← Layer.plain (key "domain_" i) dir dir Ms (thickness * 1e-9) 1e-16 thinFilm alpha gauss alphaSrc
  let K ← get s.num (key "K" i)
  .ok (layer.setAnisotropyDriver (.constantDriver (K * 1e3)))

/-- simulation_fns.py:37-65, `create_single_layer`. -/
def createLayer (s : Session T) (i : Nat) (gauss : Nat → T) (alphaSrc : Nat → Axis → Nat → Nat → T) :
    Except Err (Layer T × Proc.ResParams T) := do
  let theta ← get s.num (key "theta_K" i)
  let phi ← get s.num (key "phi_K" i)
  let dir := FieldScan.angle2vector theta phi 1
  let Ms ← get s.num (key "Ms" i)
  let thickness ← get s.num (key "thickness" i)
  let alpha ← get s.num (key "alpha" i)
  let layer ← Layer.plain (key "layer_" i) dir dir Ms (thickness * 1e-9) 1e-16 thinFilm alpha gauss alphaSrc
  let K ← get s.num (key "K" i)
  let layer := layer.setAnisotropyDriver (.constantDriver (K * 1e3))
  let length ← get s.num (key "length" i)
  let width ← get s.num (key "width" i)
  .ok (layer, { Rxx0 := 100, Rxy0 := 1, Rsmr := -0.46, Rahe := -2.7, Ramr := -0.24, l := length * 1e-6, w := width * 1e-6 })

/-- simulation_fns.py:123-127, the couplings from pair `i` on. -/
def couple (s : Session T) : List String → Nat → Junction T → Out (Junction T) Unit
  | l1 :: l2 :: ids, i, j =>
    match get s.num (key "J" i) with
    | .error e => .fail e j
    | .ok J => (j.setIECDriver l1 l2 (.constantDriver (J * 1e-6))).bind fun _ j => couple s (l2 :: ids) (i + 1) j
  | _, _, j => .ok () j

/-- simulation_fns.py:114-128, `prepare_simulation`; layer `i` has the random sources `gauss i` and `alphaSrc i`. -/
def prepareSimulation (s : Session T) (gauss : Nat → Nat → T) (alphaSrc : Nat → Nat → Axis → Nat → Nat → T) :
    Except Err (Junction T × List (Proc.ResParams T)) := do
  let made ← Proc.collect (fun i => createLayer s i (gauss i) (alphaSrc i)) (List.range s.N)
  let layers := made.map (·.1)
  let j ← Junction.plain layers
  match couple s (layers.map (·.id)) 0 j with
  | .fail e _ => .error e
  | .ok _ j => .ok (j, made.map (·.2))

/-- simulation_fns.py:132-155, `get_pimm_data`: the fields, the field vectors, the junction and the arguments of the procedure. -/
def pimmCall (s : Session T) (resFn : Proc.ResFn T) (gauss : Nat → Nat → T) (alphaSrc : Nat → Nat → Axis → Nat → Nat → T)
    (Haxis : String) (Hmin Hmax : T) (Hsteps : Nat) (dt duration : T) :
    Except Err (List T × List (CVec T) × Junction T × Proc.PimmArgs T) := do
  let (htheta, hphi) ← axisAngles Haxis
  let (scan, vecs) := FieldScan.amplitudeScan Hmin Hmax Hsteps htheta hphi false
  let (j, params) ← prepareSimulation s gauss alphaSrc
  let name ← get s.text "Hoeaxis"
  let axis ← getAxis name
  let mag ← get s.num "Hoe_mag"
  let maxFreq ← get s.count "max_freq"
  .ok (scan, vecs, j,
    { dt := dt, params := params, axis := axis, excitation := mag * 1e3, pulse := 3, duration := duration, wait := 4e-9
      maxFrequency := Scalar.lit (maxFreq : ℚ) * 1e9, resFn := resFn, disturbance := 1e-6, takeLast := 100, full := false, static := false })

/-- simulation_fns.py:158-188, `get_vsd_data`: the fields, the field vectors, the junction and the arguments of the procedure. The
frequencies (`np.arange`) do not enter into them. -/
def vsdCall (s : Session T) (resFn : Proc.ResFn T) (butter : T → Except Err (List T × List T)) (gauss : Nat → Nat → T)
    (alphaSrc : Nat → Nat → Axis → Nat → Nat → T) (Haxis : String) (Hmin Hmax : T) (Hsteps : Nat) (Hoex : String) (dt duration : T)
    (rtype : String) (mag : T) : Except Err (List T × List (CVec T) × Junction T × Proc.VsdArgs T) := do
  let (htheta, hphi) ← axisAngles Haxis
  let (scan, vecs) := FieldScan.amplitudeScan Hmin Hmax Hsteps htheta hphi false
  let (j, params) ← prepareSimulation s gauss alphaSrc
  let axis ← getAxis Hoex
  .ok (scan, vecs, j,
    { dt := dt, params := params, axis := axis, excitation := mag, duration := duration, disturbance := 1e-6, rtype := rtype
      resFn := resFn, butter := butter })

/-- helpers.py:132-143, the arguments of `get_pimm_data` from the page. -/
def simulatePimm (s : Session T) (resFn : Proc.ResFn T) (gauss : Nat → Nat → T) (alphaSrc : Nat → Nat → Axis → Nat → Nat → T) :
    Except Err (List T × List (CVec T) × Junction T × Proc.PimmArgs T) := do
  let Haxis ← get s.text "H_axis"
  let Hmin ← get s.num "Hmin"
  let Hmax ← get s.num "Hmax"
  let steps ← get s.count "Hsteps"
  let dt ← get s.num "int_step"
  let duration ← get s.count "sim_time"
  pimmCall s resFn gauss alphaSrc Haxis (Hmin * 1e3) (Hmax * 1e3) steps dt (Scalar.lit (duration : ℚ) * 1e-9)

/-- helpers.py:111-129, the arguments of `get_vsd_data` from the page, the frequencies left out. -/
def simulateVsd (s : Session T) (resFn : Proc.ResFn T) (butter : T → Except Err (List T × List T)) (gauss : Nat → Nat → T)
    (alphaSrc : Nat → Nat → Axis → Nat → Nat → T) : Except Err (List T × List (CVec T) × Junction T × Proc.VsdArgs T) := do
  let dt ← get s.num "int_step"
  let Haxis ← get s.text "H_axis"
  let Hmin ← get s.num "Hmin"
  let Hmax ← get s.num "Hmax"
  let steps ← get s.count "Hsteps"
  let Hoex ← get s.text "Hoex"
  let rtype ← get s.text "res_type"
  let duration ← get s.count "sim_time"
  let mag ← get s.num "Hoex_mag"
  vsdCall s resFn butter gauss alphaSrc Haxis (Hmin * 1e3) (Hmax * 1e3) steps Hoex dt (Scalar.lit (duration : ℚ) * 1e-9) rtype mag

/-! ## Domains -/

/-- `np.mean`. -/
def mean (l : List T) : T := l.foldl (· + ·) 0 / Scalar.lit (l.length : ℚ)

/-- domain.py:71-76, the magnetisation of one domain from the log. -/
def domainMean (log : Log T) (n : Nat) (i : Nat) : Except Err (CVec T) := do
  let x ← Proc.lookup log (key "domain_" i ++ "_mx")
  let y ← Proc.lookup log (key "domain_" i ++ "_my")
  let z ← Proc.lookup log (key "domain_" i ++ "_mz")
  .ok ⟨mean (Proc.lastN n x), mean (Proc.lastN n y), mean (Proc.lastN n z)⟩

/-- domain.py:61-76, one field: the domains' magnetisations. -/
def domainStep (N n : Nat) (duration dt : T) (H : CVec T) (j : Junction T) : Out (Junction T) (List (CVec T)) :=
  (j.clearLog.setLayerExternalFieldDriver "all" (.ofVec H)).bind fun _ j =>
  (j.runSimulation duration dt dt false .RK4).bind fun _ j =>
  match Proc.collect (domainMean j.log n) (List.range N) with
  | .error e => .fail e j
  | .ok ms => .ok ms j

/-- domain.py:61-79, the loop over the fields. -/
def domainLoop (N n : Nat) (duration dt : T) : List (CVec T) → Junction T → Out (Junction T) (List (List (CVec T)))
  | [], j => .ok [] j
  | H :: Hs, j =>
    (domainStep N n duration dt H j).bind fun ms j =>
    (domainLoop N n duration dt Hs j).bind fun rest j => .ok (ms :: rest) j

/-- domain.py:77, the mixture. -/
def mix (weights : List T) (ms : List (CVec T)) : CVec T :=
  (List.zipWith (fun (w : T) (m : CVec T) => m * w) weights ms).foldl (· + ·) ⟨0, 0, 0⟩

/-- domain.py:55-57, the weights. -/
def weights (areas : List T) : List T :=
  let ws := areas.map (· * 1e-18)
  let sum := ws.foldl (· + ·) 0
  ws.map (· / sum)

/-- domain.py:39-82, `simulate_domains`: the fields, the mixtures and the domains' magnetisations field by field. -/
def simulateDomains (s : Session T) (gauss : Nat → Nat → T) (alphaSrc : Nat → Nat → Axis → Nat → Nat → T) :
    Except Err (List T × List (CVec T) × List (List (CVec T))) := do
  let name ← get s.text "H_axis"
  let (htheta, hphi) ← axisAngles name
  let Hmin ← get s.num "Hmin"
  let Hmax ← get s.num "Hmax"
  let steps ← get s.count "Hsteps"
  let back ← get s.flag "back_to_back_scan"
  let (scan, vecs) := FieldScan.amplitudeScan (Hmin * 1e3) (Hmax * 1e3) steps htheta hphi back
  let domains ← Proc.collect (fun i => createDomain s i (gauss i) (alphaSrc i)) (List.range s.N)
  let j ← Junction.plain domains
  let areas ← Proc.collect (fun i => get s.num (key "area" i)) (List.range s.N)
  let duration ← get s.count "sim_time"
  let dt ← get s.num "int_step"
  let n ← get s.count "last_N"
  match domainLoop s.N n (Scalar.lit (duration : ℚ) * 1e-9) dt vecs j with
  | .fail e _ => .error e
  | .ok ms _ => .ok (scan, ms.map (mix (weights areas)), ms)

/-! ## Fits -/

/-- autofit.py:106-113, one dimension of the search space. -/
structure Dim (T : Type) where
  name : String
  lb : T
  ub : T

/-- A keyword argument or an entry of a dictionary. -/
abbrev Params (T : Type) := List (String × T)

/-- autofit.py:83-113, one parameter of `get_config`. The swap of line 105 changes two local variables that are not read again. -/
def configStep (float : String → Except Err T) (s : Session T) (p : String × Nat) : Except Err (Dim T ⊕ (String × T)) := do
  let name := key p.1 p.2
  let fixed ← get s.flag (key ("check_" ++ p.1) p.2)
  if fixed then
    let text ← get s.text (key ("low_" ++ p.1) p.2)
    let v ← float text
    .ok (.inr (name, v))
  else
    let up ← get s.text (key ("up_" ++ p.1) p.2)
    let ub ← float up
    let low ← get s.text (key ("low_" ++ p.1) p.2)
    let lb ← float low
    if Scalar.eqb ub lb = true then .ok (.inr (name, ub))
    else .ok (.inl ⟨name, lb, ub⟩)

/-- autofit.py:78-114, `get_config`: the search space and the fixed parameters. -/
def getConfig (float : String → Except Err T) (s : Session T) : Except Err (List (Dim T) × Params T) := do
  let made ← Proc.collect (configStep float s) (fitParams s.N)
  .ok (made.filterMap Sum.getLeft?, made.filterMap Sum.getRight?)

/-- autofit.py:11-22, `get_fixed_arguments_from_state`: thicknesses, anisotropy axes, field axis. -/
def fixedArguments (s : Session T) : Except Err (List T × List String × String) := do
  let thickness ← Proc.collect (fun i => get s.num (key "thickness" i)) (List.range s.N)
  let axes ← Proc.collect (fun i => get s.text (key "anisotropy_axis" i)) (List.range s.N)
  let H ← get s.text "H_axis"
  .ok (thickness, axes, H)

/-- autofit.py:25-36, the beginning of `hebo_fit`. -/
def fitSetup (float : String → Except Err T) (s : Session T) : Except Err (List (Dim T) × Params T × List T × List String × String) := do
  let (cfg, fixed) ← getConfig float s
  let args ← fixedArguments s
  .ok (cfg, fixed, args)

/-- `kwargs[key]`. -/
def param (kw : Params T) (k : String) : Except Err T :=
  match kw.lookup k with
  | some v => .ok v
  | none => .error .keyError

/-- simulation_fns.py:251-256, `kwargs_to_list`: J, K, Ms. -/
def kwargsToList (kw : Params T) (N : Nat) : Except Err (List T × List T × List T) := do
  let J ← Proc.collect (fun i => param kw (key "J" i)) (List.range (N - 1))
  let K ← Proc.collect (fun i => param kw (key "K" i)) (List.range N)
  let Ms ← Proc.collect (fun i => param kw (key "Ms" i)) (List.range N)
  .ok (J, K, Ms)

/-- simulation_fns.py:213-231 and 270-288, one layer and its initial angles; `weak` is the constant of the other anisotropy. -/
def sbLayer (weak : T) (i : Nat) (axis : String) (K thickness Ms : T) : Except Err (SB.Layer T × List T) := do
  let (ktheta, kphi) ← axisAngles axis
  let Kval := K * 1e3
  let (Ks, Kv) := if Scalar.eqb ktheta 0 = true then (Kval, weak) else (weak, Kval)
  let layer ← SB.Layer.mk' i (thickness * 1e-9) ⟨PyGeneral.deg2rad 0, PyGeneral.deg2rad kphi, Kv⟩ Ks (Ms / SB.mu0) none
    (VectorObj.fromCartesian 0 0 1) none
  .ok (layer, [PyGeneral.deg2rad ktheta, PyGeneral.deg2rad kphi])

/-- simulation_fns.py:236-247 and 293-304, the sweep; `solve` is `Solver.solve` with a perturbation of `1e-4`. -/
def sbSweep (solve : SB.Solver T → List T → Except Err (List T × List T)) (layers : List (SB.Layer T)) (Js : List T) (htheta hphi : T) :
    List T → List T → Except Err (List (T × T))
  | [], _ => .ok []
  | h :: hs, init => do
    let solver ← SB.Solver.mk' layers Js (Js.map fun _ => 0) (some ⟨htheta, hphi, h⟩) none none
    let (eq, freqs) ← solve solver init
    let rest ← sbSweep solve layers Js htheta hphi hs eq
    .ok ((freqs.map fun f => (h / 1e3, f)) ++ rest)

/-- simulation_fns.py:208-248, `simulate_sb`. -/
def simulateSb (solve : SB.Solver T → List T → Except Err (List T × List T)) (s : Session T) (hvals : List T) : Except Err (List (T × T)) := do
  let made ← Proc.collect (fun i => do
    let axis ← get s.text (key "anisotropy_axis" i)
    let K ← get s.num (key "K" i)
    let thickness ← get s.num (key "thickness" i)
    let Ms ← get s.num (key "Ms" i)
    sbLayer 10 i axis K thickness Ms) (List.range s.N)
  let Js ← Proc.collect (fun i => get s.num (key "J" i)) (List.range (s.N - 1))
  let H ← get s.text "H_axis"
  let (htheta, hphi) ← axisAngles H
  sbSweep solve (made.map (·.1)) (Js.map (· * 1e-6)) htheta hphi hvals (made.flatMap (·.2))

/-- `xs[i]`. -/
def item {α : Type} (xs : List α) (i : Nat) : Except Err α :=
  match xs[i]? with
  | some v => .ok v
  | none => .error .indexError

/-- simulation_fns.py:259-305, `simulate_sb_wrapper`. -/
def simulateSbWrapper (solve : SB.Solver T → List T → Except Err (List T × List T)) (hvals : List T) (N : Nat) (thickness : List T)
    (axes : List String) (Haxis : String) (kw : Params T) : Except Err (List (T × T)) := do
  let (J, K, Ms) ← kwargsToList kw N
  let made ← Proc.collect (fun i => do
    let axis ← item axes i
    let K ← item K i
    let thickness ← item thickness i
    let Ms ← item Ms i
    sbLayer 1 i axis K thickness Ms) (List.range N)
  let (htheta, hphi) ← axisAngles Haxis
  sbSweep solve (made.map (·.1)) (J.map (· * 1e-6)) htheta hphi hvals (made.flatMap (·.2))

/-- itertools' `groupby` with the field as key: runs of pairs with the same field. -/
def groups : List (T × T) → List (List (T × T))
  | [] => []
  | p :: ps =>
    match groups ps with
    | (q :: g) :: gs => if Scalar.eqb p.1 q.1 = true then (p :: q :: g) :: gs else [p] :: (q :: g) :: gs
    | gs => [p] :: gs

/-- `min` of a sequence that is not empty: the first of the smallest. -/
def minOf : T → List T → T
  | a, [] => a
  | a, b :: bs => minOf (if Scalar.ltb b a = true then b else a) bs

/-- simulation_fns.py:198-205, the loop of `compute_sb_mse` from group `i`. -/
def mseLoop (target : List T) : Nat → List (List (T × T)) → T → Except Err T
  | _, [], acc => .ok acc
  | _, [] :: _, _ => .error .valueError
  | i, (p :: g) :: gs, acc =>
    match target[i]? with
    | none => .error .indexError
    | some t =>
      let sq := fun f : T × T => Scalar.powi (t / 1e9 - f.2) 2
      mseLoop target (i + 1) gs (acc + minOf (sq p) (g.map sq))

/-- simulation_fns.py:191-205, `compute_sb_mse`; `inf` is `float("inf")`. -/
def computeMse (inf : T) (target : List T) (data : List (T × T)) : Except Err T :=
  if data.length < target.length then .ok inf else mseLoop target 0 (groups data) 0

/-! ## Files -/

/-- Python's `split("\n")` on characters. -/
def splitLines : List Char → List (List Char)
  | [] => [[]]
  | c :: cs =>
    match splitLines cs with
    | [] => [[c]]
    | l :: ls => if c = '\n' then [] :: l :: ls else (c :: l) :: ls

/-- ASCII white space of Python's `split()`. -/
def isSpace (c : Char) : Bool := c = ' ' || c = '\t' || c = '\r' || c = '\n' || c = '\x0b' || c = '\x0c'

/-- Python's `split()` on characters (ASCII white space). -/
def fields : List Char → List (List Char)
  | [] => []
  | c :: cs =>
    if isSpace c = true then fields cs
    else
      match cs with
      | [] => [[c]]
      | d :: _ =>
        if isSpace d = true then [c] :: fields cs
        else
          match fields cs with
          | [] => [[c]]
          | w :: ws => (c :: w) :: ws

/-- helpers.py:13-21 and 28-36, one line: nothing for comments and blank lines. -/
def readLine (float : List Char → Except Err T) (line : List Char) : Except Err (Option (T × List T)) :=
  if line.head? = some '#' then .ok none
  else
    match fields line with
    | [] => .ok none
    | v :: vs => do
      let h ← float v
      let fs ← Proc.collect float vs
      .ok (some (h, fs))

/-- helpers.py:9-21 and 24-36, `read_mh_data` and `read_data` (the same code): fields and rows. -/
def readData (float : List Char → Except Err T) (file : List Char) : Except Err (List T × List (List T)) := do
  let rows ← Proc.collect (readLine float) ((splitLines file).drop 1)
  let rows := rows.filterMap id
  .ok (rows.map (·.1), rows.map (·.2))

/-! ## Resonance lines -/

/-- `np.gradient` of one row: one-sided at the ends. -/
def gradient (row : List T) : Except Err (List T) :=
  if row.length < 2 then .error .valueError
  else .ok ((List.range row.length).map fun i =>
    if i = 0 then row.getD 1 0 - row.getD 0 0
    else if i + 1 = row.length then row.getD i 0 - row.getD (i - 1) 0
    else (row.getD (i + 1) 0 - row.getD (i - 1) 0) / 2)

/-- `np.sign`. -/
def sign (x : T) : Int := if Scalar.ltb 0 x = true then 1 else if Scalar.ltb x 0 = true then -1 else 0

/-- utils.py:36-38, the places after which the sign of the gradient changes. -/
def turns (grad : List T) : List Nat :=
  (List.range (grad.length - 1)).filter fun i => sign (grad.getD (i + 1) 0) - sign (grad.getD i 0) != 0

/-- utils.py:48, `xs + [None] * n`: numpy makes an array of the list and adds. An empty list is an array of no numbers. -/
def plusNone (xs : List T) (n : Int) : Except Err (List T) :=
  if xs.length = n.toNat ∨ xs.length = 1 ∨ n.toNat = 1 then
    if xs.length = 0 ∨ n.toNat = 0 then .ok [] else .error .typeError
  else .error .valueError

/-- utils.py:34-49, one field of `extract_max_resonance_lines`; `argsort` is numpy's. Line 39, whose result is not used, is left out. -/
def resonanceRow (argsort : List T → List Nat) (row freqs : List T) (N : Nat) : Except Err (List T) := do
  let grad ← gradient row
  let indices := turns grad
  let amps ← Proc.pick row indices
  let sorted ← Proc.collect (fun k => match indices[k]? with
    | some i => .ok i
    | none => .error .indexError) (argsort amps)
  let best := Proc.lastN N sorted
  let fs ← Proc.pick freqs best
  plusNone fs ((N : Int) - best.length)

/-- utils.py:22-50, `extract_max_resonance_lines` for a matrix of rows and a list of frequencies: the entries in the order of the fields. -/
def resonanceLines (argsort : List T → List Nat) (spectrum : List (List T)) (hs freqs : List T) (N mx my : Nat) :
    Except Err (List (T × List T)) :=
  Proc.collect (fun i =>
    match ((spectrum.drop mx).map fun row => row.drop my)[i]?, (hs.drop mx)[i]? with
    | some row, some h => do
      let fs ← resonanceRow argsort row (freqs.drop my) N
      .ok (h, fs)
    | _, _ => .error .indexError) (List.range (hs.drop mx).length)

end View
