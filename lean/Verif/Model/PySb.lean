import Verif.Model.PyVector
import Mathlib.Analysis.Calculus.Deriv.Basic
import Mathlib.LinearAlgebra.Matrix.Determinant.Basic

/-!
# Model of `cmtj/models/general_sb.py`

Simplifications:
* A sympy expression in the angles is a function of an assignment `Coord → T` of values to the symbols; `sym.diff` is the partial
  derivative `pd` (over the reals), `subs` is evaluation. The caches are in `Model/PyCache`.
* `U.det()` of the LU decomposition is the determinant (sympy's row exchanges can change its sign, not its zeros).
* A solver is used with the lists its constructor checked, so coupling lists are walked together with the layers instead of being
  indexed.
* A `LayerDynamic` is a layer with `dyn` set. The symbols `V_p` and `H_{oe}` are arguments.
* `max_steps` is an integer; the gradient of the descent is any function; the random perturbation is an argument.
* scipy's root search and sympy's `solve` are outside the model. Casts to float32/complex64 are left out.
-/

namespace SB

/-- general_sb.py:181-182, the symbols theta_i and phi_i of the layer with id i. -/
inductive Coord
  | theta (id : Int)
  | phi (id : Int)
  deriving DecidableEq

/-- general_sb.py:264-268, the fields `LayerDynamic` adds. -/
structure Dyn (T : Type) where
  alpha : T
  torquePar : T
  torquePerp : T

/-- general_sb.py:152-170, class `LayerSB`. -/
structure Layer (T : Type) where
  id : Int
  thickness : T
  Kv : VectorObj T
  Ks : T
  Ms : T
  Hdmi : CVec T
  Ndemag : CVec T
  dyn : Option (Dyn T)

section energy
variable {T : Type} [Scalar T]

/-- utils/__init__.py:21. -/
def mu0 : T := 12.566e-7
/-- utils/__init__.py:25. -/
def gamma : T := 28024e6
/-- utils/__init__.py:26. -/
def gammaRad : T := 1.76e11
/-- general_sb.py:17, `np.finfo("float64").resolution`. -/
def EPS : T := 1e-15

/-- general_sb.py:172-189, `LayerSB.__post_init__`. -/
def Layer.mk' (id : Int) (thickness : T) (Kv : VectorObj T) (Ks Ms : T) (Hdmi : Option (VectorObj T)) (Ndemag : VectorObj T)
    (dyn : Option (Dyn T)) : Except Err (Layer T) :=
  if 9 < id then .error .valueError
  else .ok
    { id := id, thickness := thickness, Kv := Kv, Ks := Ks, Ms := Ms
      Hdmi := match Hdmi with
        | none => ⟨0, 0, 0⟩
        | some h => h.getCartesian
      Ndemag := Ndemag.getCartesian
      dyn := dyn }

/-- general_sb.py:254-261, `LayerSB.__eq__`. -/
def Layer.eqLayer (a b : Layer T) : Bool :=
  a.id == b.id && Scalar.eqb a.thickness b.thickness && a.Kv.eqb b.Kv && Scalar.eqb a.Ks b.Ks && Scalar.eqb a.Ms b.Ms

/-- general_sb.py:314-315, `LayerDynamic.__eq__` for two dynamic layers. -/
def Layer.eqDynamic (a b : Layer T) (d e : Dyn T) : Bool := a.eqLayer b && Scalar.eqb d.alpha e.alpha

/-- general_sb.py:183-197, `get_m_sym`. -/
def Layer.m (l : Layer T) (x : Coord → T) : CVec T :=
  ⟨Scalar.sin (x (.theta l.id)) * Scalar.cos (x (.phi l.id)), Scalar.sin (x (.theta l.id)) * Scalar.sin (x (.phi l.id)),
    Scalar.cos (x (.theta l.id))⟩

/-- general_sb.py:229-245, `no_interaction_symbolic_energy`. -/
def Layer.noInteraction (l : Layer T) (H : CVec T) (x : Coord → T) : T :=
  let m := l.m x
  let alpha : CVec T := ⟨Scalar.cos l.Kv.phi, Scalar.sin l.Kv.phi, 0⟩
  let field := -mu0 * l.Ms * m.dot H
  let hdmi := -mu0 * l.Ms * m.dot l.Hdmi
  let surface := -l.Ks * Scalar.powi m.z 2
  let volume := -l.Kv.mag * Scalar.powi (m.dot alpha) 2
  let m2 : CVec T := ⟨Scalar.powi m.x 2, Scalar.powi m.y 2, Scalar.powi m.z 2⟩
  let demag := 0.5 * mu0 * Scalar.powi l.Ms 2 * m2.dot l.Ndemag
  field + surface + volume + hdmi + demag

/-- general_sb.py:199-227, `total_symbolic_layer_energy`. -/
def Layer.totalEnergy (l : Layer T) (H : CVec T) (J1top J1bottom J2top J2bottom : T) (top down : Option (Layer T))
    (x : Coord → T) : T :=
  let m := l.m x
  let own := l.noInteraction H x * l.thickness
  let etop := match top with
    | none => 0
    | some o =>
      let mdot := m.dot (o.m x)
      let e := -J1top * mdot - J2top * Scalar.powi mdot 2
      e
  let ebottom := match down with
    | none => 0
    | some o =>
      let mdot := m.dot (o.m x)
      let e := -J1bottom * mdot - J2bottom * Scalar.powi mdot 2
      e
  own + etop + ebottom

/-- A matrix given by its three rows. -/
structure Rows (T : Type) where
  r1 : CVec T
  r2 : CVec T
  r3 : CVec T

/-- Matrix times vector. -/
def Rows.mulVec (A : Rows T) (v : CVec T) : CVec T := ⟨A.r1.dot v, A.r2.dot v, A.r3.dot v⟩

/-- general_sb.py:321-341, class `Solver`. -/
structure Solver (T : Type) where
  layers : List (Layer T)
  J1 : List T
  J2 : List T
  H : Option (VectorObj T)
  ilD : List (CVec T)
  dipole : Option (List (Rows T))

/-- general_sb.py:343-366, `Solver.__post_init__`. -/
def Solver.mk' (layers : List (Layer T)) (J1 J2 : List T) (H : Option (VectorObj T)) (ilD : Option (List (VectorObj T)))
    (Ndipole : Option (List (VectorObj T × VectorObj T × VectorObj T))) : Except Err (Solver T) :=
  if layers.length ≠ J1.length + 1 then .error .valueError
  else if layers.length ≠ J2.length + 1 then .error .valueError
  else
    let ilD := match ilD with
      | none => List.replicate (layers.length - 1) (⟨0, 0, 0⟩ : VectorObj T)
      | some d => d
    if layers.length ≠ ilD.length + 1 then .error .valueError
    else if (match Ndipole with
        | none => false
        | some d => layers.length ≠ d.length + 1) then .error .valueError
    else
      let ids := layers.map (·.id)
      let ideal := (List.range layers.length).map Int.ofNat
      if ids.all (ideal.contains ·) && ideal.all (ids.contains ·) then
        .ok { layers := layers, J1 := J1, J2 := J2, H := H, ilD := ilD.map (·.getCartesian)
              dipole := Ndipole.map (·.map fun d => ⟨d.1.getCartesian, d.2.1.getCartesian, d.2.2.getCartesian⟩) }
      else .error .valueError

/-- general_sb.py:368-382, `get_layer_references` for a non-negative index: the layers above and below and their constants. -/
def Solver.references (s : Solver T) (i : Nat) (J : List T) : Except Err (Option (Layer T) × Option (Layer T) × T × T) :=
  if s.layers.length = 1 then .ok (none, none, 0, 0)
  else if i = 0 then
    match s.layers[i + 1]?, J[0]? with
    | some d, some j => .ok (none, some d, 0, j)
    | _, _ => .error .indexError
  else if i = s.layers.length - 1 then
    match s.layers[i - 1]?, J.getLast? with
    | some u, some j => .ok (some u, none, j, 0)
    | _, _ => .error .indexError
  else
    match s.layers[i - 1]?, s.layers[i + 1]?, J[i - 1]?, J[i]? with
    | some u, some d, some j, some k => .ok (some u, some d, j, k)
    | _, _, _, _ => .error .indexError

/-- general_sb.py:422-429, the exchange and DMI terms between two neighbours, taken off the energy. -/
def exchange (e : T) (l1 l2 : Layer T) (J1 J2 : T) (D : CVec T) (x : Coord → T) : T :=
  let ldot := (l1.m x).dot (l2.m x)
  let e := e - J1 * ldot
  let e := e - J2 * Scalar.powi ldot 2
  let lcross := (l1.m x).cross (l2.m x)
  e - D.dot lcross

/-- general_sb.py:434-448, the dipole terms between two neighbours, added to the energy. -/
def dipolar (e : T) (l1 l2 : Layer T) (mat : Rows T) (x : Coord → T) : T :=
  let e := e + mu0 / 2.0 * (l1.m x).dot (mat.mulVec (l2.m x)) * l1.Ms * l2.Ms * l1.thickness
  let e := e + mu0 / 2.0 * (l2.m x).dot (mat.mulVec (l1.m x)) * l1.Ms * l2.Ms * l2.thickness
  e

/-- general_sb.py:431-433, the dipole terms if there are tensors, with the next of them. -/
def dipoleStep (e : T) (l1 l2 : Layer T) (dip : Option (List (Rows T))) (x : Coord → T) : T :=
  match dip with
  | some (mat :: _) => dipolar e l1 l2 mat x
  | _ => e

/-- general_sb.py:418-448, the loop over neighbouring layers. -/
def couplings (x : Coord → T) : List (Layer T) → List T → List T → List (CVec T) → Option (List (Rows T)) → T → T
  | l1 :: l2 :: ls, j1 :: J1, j2 :: J2, d :: D, dip, e =>
    let e := exchange e l1 l2 j1 j2 d x
    let e := dipoleStep e l1 l2 dip x
    couplings x (l2 :: ls) J1 J2 D (dip.map List.tail) e
  | _, _, _, _, _, e => e

/-- general_sb.py:398-449, `create_energy` for the field `H` (the argument `volumetric` is not used). -/
def Solver.energy (s : Solver T) (H : CVec T) (x : Coord → T) : T :=
  let e := s.layers.foldl (fun e l => e + l.noInteraction H x * l.thickness) 0
  couplings x s.layers s.J1 s.J2 s.ilD s.dipole e

/-- general_sb.py:726-733, `get_subs`: the position's entries two by two for the layers in the order of the list. -/
def subs : List (Layer T) → List T → (Coord → T) → (Coord → T)
  | l :: ls, th :: ph :: eq, x => subs ls eq (Function.update (Function.update x (.theta l.id) th) (.phi l.id) ph)
  | _, _, x => x

/-- general_sb.py:735-739, `get_ms_subs`. -/
def Solver.msSubs (s : Solver T) : List (String × T) :=
  s.layers.map (fun l => ("M_{" ++ toString l.id ++ "}", l.Ms)) ++ s.layers.map (fun l => ("t_{" ++ toString l.id ++ "}", l.thickness))

end energy

/-! ## Descent -/

section descent
variable {T : Type} [Scalar T]

/-- general_sb.py:29-35, `fast_norm`. -/
def fastNorm (x : List T) : T := Scalar.sqrt (x.foldl (fun s a => s + Scalar.powi a 2) 0)

/-- The limits and rates of a descent. -/
structure Rates (T : Type) where
  maxSteps : Int
  tol : T
  rate : T
  beta1 : T
  beta2 : T

/-- general_sb.py:529-542, the loop of `adam_gradient_descent`: the position returned and the number of gradients computed. -/
def adamLoop (grad : List T → List T) (r : Rates T) (step : Nat) (pos m v : List T) : List T × Nat :=
  let step := step + 1
  let g := grad pos
  let m := List.zipWith (fun a b => r.beta1 * a + (1.0 - r.beta1) * b) m g
  let v := List.zipWith (fun a b => r.beta2 * a + (1.0 - r.beta2) * Scalar.powi b 2) v g
  let mHat := m.map (· / (1.0 - Scalar.powi r.beta1 step))
  let vHat := v.map (· / (1.0 - Scalar.powi r.beta2 step))
  let new := List.zipWith (fun p q => p - q) pos (List.zipWith (fun a b => r.rate * a / (Scalar.sqrt b + 1e-12)) mHat vHat)
  if r.maxSteps < (step : Int) then (pos, 1)
  else if Scalar.ltb (fastNorm (List.zipWith (· - ·) pos new)) r.tol then (pos, 1)
  else
    let (p, n) := adamLoop grad r step new m v
    (p, n + 1)
termination_by (r.maxSteps - step).toNat
decreasing_by omega

/-- general_sb.py:501-544, `adam_gradient_descent`, with the random perturbation `noise` (`perturb_position`, general.py:110-114). -/
def adam (grad : List T → List T) (r : Rates T) (init : List T) (perturbation : T) (noise : List T) : List T × Nat :=
  let pos := if Scalar.eqb perturbation 0 then init else List.zipWith (· + ·) init noise
  adamLoop grad r 0 pos (pos.map fun _ => 0) (pos.map fun _ => 0)

/-- general_sb.py:574-585, the loop of `amsgrad_gradient_descent`. -/
def amsgradLoop (grad : List T → List T) (r : Rates T) (step : Nat) (pos m v vHat : List T) : List T × Nat :=
  let step := step + 1
  let g := grad pos
  let m := List.zipWith (fun a b => r.beta1 * a + (1.0 - r.beta1) * b) m g
  let v := List.zipWith (fun a b => r.beta2 * a + (1.0 - r.beta2) * Scalar.powi b 2) v g
  let vHat := List.zipWith (fun a b => if Scalar.ltb a b then b else a) vHat v
  let new := List.zipWith (fun p q => p - q) pos (List.zipWith (fun a b => r.rate * a / (Scalar.sqrt b + 1e-12)) m vHat)
  if r.maxSteps < (step : Int) then (pos, 1)
  else if Scalar.ltb (fastNorm (List.zipWith (· - ·) pos new)) r.tol then (pos, 1)
  else
    let (p, n) := amsgradLoop grad r step new m v vHat
    (p, n + 1)
termination_by (r.maxSteps - step).toNat
decreasing_by omega

/-- general_sb.py:546-586, `amsgrad_gradient_descent`. -/
def amsgrad (grad : List T → List T) (r : Rates T) (init : List T) (perturbation : T) (noise : List T) : List T × Nat :=
  let pos := if Scalar.eqb perturbation 0 then init else List.zipWith (· + ·) init noise
  amsgradLoop grad r 0 pos (pos.map fun _ => 0) (pos.map fun _ => 0) (pos.map fun _ => 0)

/-- general_sb.py:745-803, `analytical_field_scan`: what the iteration yields and the caller's field objects afterwards.
`descend` is the descent for a field, `roots` the evaluated analytical roots. The objects in the list are different ones. -/
def fieldScan (nLayers : Nat) (descend : VectorObj T → List T → List T) (roots : VectorObj T → List T → List T)
    (Hrange : List (VectorObj T)) (init : Option (List T)) :
    Except Err (List (List T × List T × VectorObj T) × List (VectorObj T)) :=
  let rec go : List (VectorObj T) → List T → List (List T × List T × VectorObj T)
    | [], _ => []
    | h :: hs, cur =>
      let eq := descend h cur
      (eq, roots h eq, h) :: go hs eq
  match init with
  | some p => .ok (go Hrange p, Hrange)
  | none =>
    match Hrange with
    | [] => .error .indexError
    | h :: hs =>
      let start := { h with mag := 1 }
      let p := (List.replicate nLayers [start.theta, start.phi]).flatten
      .ok (go (start :: hs) p, start :: hs)

end descent

/-! ## Derivatives -/

/-- `sym.diff(E, c)` at the values `x`. -/
noncomputable def pd (E : (Coord → ℝ) → ℝ) (c : Coord) (x : Coord → ℝ) : ℝ := deriv (fun t => E (Function.update x c t)) (x c)

/-- general_sb.py:247-249, `sb_correction`. -/
noncomputable def Layer.correction (l : Layer ℝ) (ω : ℝ) (x : Coord → ℝ) : ℝ :=
  ω / gamma * l.Ms * Real.sin (x (.theta l.id)) * l.thickness

/-- A matrix under construction, and writing one entry. -/
def setEntry (h : Nat → Nat → ℂ) (a b : Nat) (v : ℂ) : Nat → Nat → ℂ := fun p q => if p = a ∧ q = b then v else h p q

/-- general_sb.py:464-484 and 80-107, the body of the two loops that fill the Hessian: `d a b` is the second derivative in the
symbols a, b; `z` the precession term of layer i. -/
noncomputable def hessStep (d : Coord → Coord → ℝ) (id : Nat → Int) (z : Nat → ℝ) (h : Nat → Nat → ℂ) (ij : Nat × Nat) : Nat → Nat → ℂ :=
  let i := ij.1
  let j := ij.2
  let e : ℂ := d (.theta (id i)) (.theta (id j))
  let h := setEntry h (2 * i) (2 * j) e
  let h := setEntry h (2 * j) (2 * i) e
  let e : ℂ := d (.phi (id i)) (.phi (id j))
  let h := setEntry h (2 * i + 1) (2 * j + 1) e
  let h := setEntry h (2 * j + 1) (2 * i + 1) e
  let e : ℂ := d (.theta (id i)) (.phi (id j))
  if i = j then
    let h := setEntry h (2 * i + 1) (2 * j) (e + Complex.I * z i)
    setEntry h (2 * i) (2 * j + 1) (e - Complex.I * z i)
  else
    let h := setEntry h (2 * i) (2 * j + 1) e
    let h := setEntry h (2 * j + 1) (2 * i) e
    let e : ℂ := d (.phi (id i)) (.theta (id j))
    let h := setEntry h (2 * i + 1) (2 * j) e
    setEntry h (2 * j) (2 * i + 1) e

/-- general_sb.py:457-460 and 67-78, the index pairs of the two loops, in order. -/
def pairs (n : Nat) : List (Nat × Nat) := (List.range n).flatMap fun i => (List.range' i (n - i)).map fun j => (i, j)

/-- general_sb.py:456-484 and 66-107, the filled Hessian. -/
noncomputable def fillHessian (n : Nat) (d : Coord → Coord → ℝ) (id : Nat → Int) (z : Nat → ℝ) : Nat → Nat → ℂ :=
  (pairs n).foldl (hessStep d id z) (fun _ _ => 0)

/-- The layer at an index (a dummy beyond the end, never used). -/
def Solver.layerAt (s : Solver ℝ) (i : Nat) : Layer ℝ :=
  s.layers.getD i ⟨0, 0, ⟨0, 0, 0⟩, 0, 0, ⟨0, 0, 0⟩, ⟨0, 0, 0⟩, none⟩

/-- general_sb.py:451-486, the matrix of `create_energy_hessian` at the position `x` and frequency `ω`. -/
noncomputable def Solver.hessian (s : Solver ℝ) (H : CVec ℝ) (x : Coord → ℝ) (ω : ℝ) : Nat → Nat → ℂ :=
  fillHessian s.layers.length (fun a b => pd (pd (s.energy H) a) b x) (fun i => (s.layerAt i).id)
    (fun i => (s.layerAt i).correction ω x)

/-- general_sb.py:451-488, `create_energy_hessian`: the determinant as a function of the frequency. -/
noncomputable def Solver.hessianDet (s : Solver ℝ) (H : CVec ℝ) (eq : List ℝ) (ω : ℝ) : ℂ :=
  Matrix.det (Matrix.of fun a b : Fin (2 * s.layers.length) => s.hessian H (subs s.layers eq fun _ => 0) ω a b)

/-- general_sb.py:490-499, `get_gradient_expr`: the gradient at a position, two entries per layer. -/
noncomputable def Solver.gradient (s : Solver ℝ) (H : CVec ℝ) (eq : List ℝ) : List ℝ :=
  let x := subs s.layers eq fun _ => 0
  s.layers.flatMap fun l => [pd (s.energy H) (.theta l.id) x, pd (s.energy H) (.phi l.id) x]

/-- general_sb.py:588-605, `single_layer_resonance`; `none` for NaN (root of a negative number). -/
noncomputable def Solver.singleResonance (s : Solver ℝ) (H : CVec ℝ) (i : Nat) (eq : List ℝ) : Except Err (Option ℝ) :=
  match s.layers[i]?, eq[2 * i]? with
  | some l, some th =>
    let x := subs s.layers eq fun _ => 0
    let E := s.energy H
    let dtt := pd (pd E (.theta l.id)) (.theta l.id) x
    let dpp := pd (pd E (.phi l.id)) (.phi l.id) x
    let dtp := pd (pd E (.theta l.id)) (.phi l.id) x
    let fmr := (dtt * dpp - dtp ^ 2) / (Real.sin (th + 1e-18) * l.Ms) ^ 2
    .ok (if fmr < 0 then none else some (√fmr * gammaRad / (2 * Real.pi)))
  | _, _ => .error .indexError

/-- What `solve` computes for the frequencies. -/
inductive Outcome
  | modes
  | single (f : List (Option ℝ))
  | numeric

/-- general_sb.py:607-671, `solve` after the descent: checks, then which computation gives the frequencies (in GHz). -/
noncomputable def Solver.solve (s : Solver ℝ) (descend : CVec ℝ → List ℝ → List ℝ) (init : List ℝ) (forceSingle forceSb : Bool) :
    Except Err (List ℝ × Outcome) :=
  match s.H with
  | none => .error .valueError
  | some Hv =>
    let H := Hv.getCartesian
    if init.length ≠ 2 * s.layers.length then .error .assertion
    else
      let eq := descend H init
      match s.layers with
      | [] => .error .indexError
      | l :: _ =>
        if !forceSb && l.dyn.isSome then .ok (eq, .modes)
        else if s.layers.length = 1 then
          match s.singleResonance H 0 eq with
          | .error e => .error e
          | .ok f => .ok (eq, .single [f.map (· / 1e9)])
        else if forceSingle then
          match (List.range s.layers.length).mapM fun i => s.singleResonance H i eq with
          | .error e => .error e
          | .ok fs => .ok (eq, .single (fs.map (·.map (· / 1e9))))
        else .ok (eq, .numeric)

/-! ## LLG in angles -/

/-- general_sb.py:301-312, `torque`, with `V = 1` unless oscillating. -/
noncomputable def Layer.torque (l : Layer ℝ) (d : Dyn ℝ) (V : ℝ) (x : Coord → ℝ) : ℝ × ℝ :=
  let par := d.torquePar * V
  let perp := d.torquePerp * V
  (Real.sin (x (.theta l.id)) * (-par - d.alpha * perp), -perp + d.alpha * par)

/-- general_sb.py:278-299, `rhs_spherical_llg`; not oscillating means `Hoe = 0` and `V = 1`. -/
noncomputable def Layer.rhs (l : Layer ℝ) (d : Dyn ℝ) (U : (Coord → ℝ) → ℝ) (Hoe V : ℝ) (x : Coord → ℝ) : ℝ × ℝ :=
  let prefac := gammaRad / (1 + d.alpha ^ 2)
  let inv := 1 / (Real.sin (x (.theta l.id)) + EPS)
  let dUt := pd U (.theta l.id) x
  let dUp := pd U (.phi l.id) x
  let dt := (-inv) * dUp - d.alpha * dUt + l.Ms * Hoe
  let dp := inv * dUt - d.alpha * dUp * inv ^ 2 + d.alpha * l.Ms * Hoe * inv
  let τ := l.torque d V x
  (prefac * (dt + τ.1) / l.Ms, prefac * (dp + τ.2) / l.Ms)

/-- The energy a layer's LLG uses: `U / layer.thickness`, general_sb.py:394 and 871. -/
noncomputable def Solver.perThickness (s : Solver ℝ) (H : CVec ℝ) (l : Layer ℝ) : (Coord → ℝ) → ℝ :=
  fun x => s.energy H x / l.thickness

/-- A layer as `LayerDynamic` (attribute access fails on a `LayerSB`). -/
def Layer.asDyn {T : Type} (l : Layer T) : Except Err (Layer T × Dyn T) :=
  match l.dyn with
  | some d => .ok (l, d)
  | none => .error .attribute

/-- general_sb.py:389-394, the right-hand sides of all layers and the symbols, in the order of the list. -/
noncomputable def rhsList (s : Solver ℝ) (H : CVec ℝ) (Hoe V : ℝ) (ls : List (Layer ℝ × Dyn ℝ)) : List ((Coord → ℝ) → ℝ) :=
  ls.flatMap fun ld => [fun x => (ld.1.rhs ld.2 (s.perThickness H ld.1) Hoe V x).1, fun x => (ld.1.rhs ld.2 (s.perThickness H ld.1) Hoe V x).2]

/-- general_sb.py:393, the symbols in order. -/
def symbols {T : Type} (ls : List (Layer T)) : List Coord := ls.flatMap fun l => [.theta l.id, .phi l.id]

/-- general_sb.py:384-396, `compose_llg_jacobian` at a position: the rows of the Jacobian. -/
noncomputable def Solver.jacobian (s : Solver ℝ) (H : CVec ℝ) (x : Coord → ℝ) : Except Err (List (List ℝ)) :=
  match s.layers.mapM Layer.asDyn with
  | .error e => .error e
  | .ok ls => .ok ((rhsList s H 0 1 ls).map fun f => (symbols s.layers).map fun c => pd f c x)

/-- general_sb.py:681-685, the end of `dynamic_layer_solve`: from numpy's eigenvalues and eigenvector matrix (a list of rows,
eigenvectors in the columns), the positive frequencies and the vectors handed out with them. -/
noncomputable def positiveModes (vals : List ℂ) (vecs : List (List ℂ)) : List ℝ × List (List ℂ) :=
  let im := vals.map fun l => l.im / (2 * Real.pi)
  let indx := (List.range im.length).filter fun k => decide (0 < im.getD k 0)
  (indx.map fun k => im.getD k 0, indx.map fun k => vecs.getD k [])

/-! ## Linear response -/

/-- general_sb.py:270-276, the variable that is excited. -/
inductive Excite
  | vp
  | hoe

/-- general_sb.py:836-849, the values of `H_{oe}` and `V_p`: the excited one is set, the other is 0. -/
def exciteValues (e : Excite) (v : ℝ) : ℝ × ℝ :=
  match e with
  | .vp => (0, v)
  | .hoe => (v, 0)

/-- general_sb.py:871-873, the derivative of the right-hand sides in the excited variable. -/
noncomputable def Solver.responseV (s : Solver ℝ) (H : CVec ℝ) (ls : List (Layer ℝ × Dyn ℝ)) (e : Excite) (v : ℝ) (x : Coord → ℝ)
    (a : Nat) : ℝ :=
  deriv (fun u => ((rhsList s H (exciteValues e u).1 (exciteValues e u).2 ls).getD a fun _ => 0) x) v

/-- general_sb.py:874-883, the matrix of the linear system. -/
noncomputable def Solver.responseA (s : Solver ℝ) (H : CVec ℝ) (ls : List (Layer ℝ × Dyn ℝ)) (e : Excite) (v : ℝ) (f : ℝ) (x : Coord → ℝ)
    (a b : Nat) : ℂ :=
  let alpha := ((ls.map (·.2.alpha)).getD (a / 2) 0)
  let factor := 1 + alpha ^ 2
  let rhs := (rhsList s H (exciteValues e v).1 (exciteValues e v).2 ls).getD a fun _ => 0
  let entry : ℂ := ((-pd rhs ((symbols s.layers).getD b (.theta 0)) x * factor : ℝ) : ℂ)
  if a = b then entry + ((factor * (2 * Real.pi * f) : ℝ) : ℂ) * Complex.I else entry

/-- general_sb.py:886-938, `linearised_N_spin_diode` with the default `cache_var` ("H"), `false` for "f". -/
noncomputable def Solver.spinDiode (s : Solver ℝ) (H : CVec ℝ) (f : ℝ) (e : Excite) (v : ℝ) (x : Coord → ℝ) (phase : ℝ)
    (cacheH : Bool) : Except Err (List ℝ) :=
  if s.layers.any fun l => l.dyn.isNone then .error .valueError
  else if !cacheH then .error .typeError
  else
    let ls := s.layers.filterMap fun l => l.dyn.map fun d => (l, d)
    let n := 2 * s.layers.length
    let A : Matrix (Fin n) (Fin n) ℂ := Matrix.of fun a b => s.responseA H ls e v f x a b
    let V : Fin n → ℂ := fun a => s.responseV H ls e v x a
    if A.det = 0 then .error .linAlg
    else .ok (List.ofFn fun a : Fin n => ((A⁻¹.mulVec V) a * Complex.exp (Complex.I * phase)).re)

end SB
