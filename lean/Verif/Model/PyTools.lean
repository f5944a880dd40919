import Verif.Model.PyVector

/-!
# Model of small Python helpers

`cmtj/models/ensemble.py`, `cmtj/utils/filters.py` (`detrend_axis`), `cmtj/utils/parallel.py`, `cmtj/utils/optimization.py`
(`coordinate_descent`), `cmtj/utils/solvers.py`, `cmtj/utils/plotting.py` (`unpack_ndim_map`).
-/

/-! ## ensemble.py -/

namespace Ensemble
variable {T : Type} [Scalar T]

/-- ensemble.py:4-15, `meinert_model`. -/
def meinert (phi V1 V2 phaseOffset offset : T) : T :=
  let r := PyGeneral.deg2rad (phi - phaseOffset)
  (V1 * Scalar.cos (2 * r) - V2) * Scalar.cos r + offset

/-- ensemble.py:18-26, `symmetric_lorentz`. -/
def symmetricLorentz (H dH Hr Vs : T) : T :=
  let dH2 := Scalar.powi dH 2
  Vs * dH2 / (Scalar.powi (H - Hr) 2 + dH2)

/-- ensemble.py:29-38, `antisymmetric_lorentz`. -/
def antisymmetricLorentz (H dH Hr Vas : T) : T :=
  let dH2 := Scalar.powi dH 2
  let dHr := H - Hr
  Vas * dH * dHr / (Scalar.powi dHr 2 + dH2)

/-- ensemble.py:41-50, `mixed_lorentz`. -/
def mixedLorentz (H dH Hr Va Vas : T) : T := symmetricLorentz H dH Hr Va + antisymmetricLorentz H dH Hr Vas

end Ensemble

/-! ## filters.py -/

namespace Filters
variable {T : Type} [Scalar T]

/-- numpy's `median` of a non-empty list: the middle value of the sorted list or the mean of the two middle values. -/
def median (l : List T) : T :=
  let s := l.mergeSort Scalar.leb
  let n := s.length
  if n % 2 = 1 then s.getD (n / 2) 0
  else (s.getD (n / 2 - 1) 0 + s.getD (n / 2) 0) / 2

/-- column `j` of a matrix given by its rows -/
def column (arr : List (List T)) (j : Nat) : List T := arr.map fun row => row.getD j 0

/-- filters.py:45-52, `detrend_axis` for a matrix with `c` columns; axis 0 (false) or 1 (true). -/
def detrendAxis (arr : List (List T)) (c : Nat) (axis : Bool) : List (List T) :=
  if axis then arr.map fun row => row.map fun x => x - median row
  else arr.map fun row => (List.range c).map fun j => row.getD j 0 - median (column arr j)

end Filters

/-! ## parallel.py -/

namespace PyParallel
variable {α β : Type} [DecidableEq α]

/-- `itertools.product(*spaces)`. -/
def product : List (List α) → List (List α)
  | [] => [[]]
  | s :: ss => s.flatMap fun a => (product ss).map (a :: ·)

/-- parallel.py:30-31, `_get_index`: the first index of each value in its space. -/
def getIndex (spaces : List (List α)) (values : List α) : List Nat :=
  (List.range spaces.length).map fun i =>
    match spaces[i]?, values[i]? with
    | some s, some v => s.idxOf v
    | _, _ => 0

/-- parallel.py:45-49: what `distribute` yields when the workers finish in the order `done`. `iterables` and `indexes` are the
work list and the list of indices. -/
def collect (f : List α → β) (iterables : List (List α)) (indexes : List (List Nat)) (done : List (List α)) : List (List Nat × β) :=
  done.map fun it => (indexes.getD (iterables.idxOf it) [], f it)

/-- parallel.py:11-49, `distribute`. `order` is the shuffled list of positions (the identity without shuffling) and `done` the order
in which `imap_unordered` delivers the points. -/
def distribute (f : List α → β) (spaces : List (List α)) (order : List Nat) (done : List (List α)) : List (List Nat × β) :=
  let iterables := product spaces
  let indexes := iterables.map (getIndex spaces)
  collect f (order.map fun i => iterables.getD i []) (order.map fun i => indexes.getD i []) done

end PyParallel

/-! ## optimization.py -/

namespace PyOptim

/-- A dictionary of parameters, in insertion order. -/
abbrev Params (T : Type) := List (String × T)

/-- `params[k] = v` for a key that is present. -/
def setKey {T : Type} (p : Params T) (k : String) (v : T) : Params T := p.map fun kv => if kv.1 = k then (k, v) else kv

/-- What `opt_params` refers to: the caller's dictionary, or the dictionary `new_params` made for a key (a reference: later
assignments to that dictionary are seen through it). -/
inductive Ref | caller | made (k : String)
  deriving DecidableEq

/-- State of the inner loop: the current contents of `new_params`, the reference `opt_params`, and `best_mse`. -/
structure Inner (T V : Type) where
  newParams : Params T
  opt : Ref
  best : V

variable {T V : Type} [LinearOrder V]

/-- The inner loop, optimization.py:26-35. -/
def inner (fn : Params T → V) (k : String) : List T → Inner T V → Inner T V
  | [], s => s
  | v :: vs, s =>
    let p := setKey s.newParams k v
    let mse := fn p
    inner fn k vs (if s.best < mse then ⟨p, .made k, mse⟩ else { s with newParams := p })

/-- State of the outer loop: `opt_params`, the final contents of the dictionaries made so far, and `best_mse`. -/
structure Outer (T V : Type) where
  opt : Ref
  made : List (String × Params T)
  best : V

/-- The outer loop, optimization.py:24-35, over the remaining keys. -/
def outer (fn : Params T → V) (point : Params T) (span : T → List T) : Params T → Outer T V → Outer T V
  | [], s => s
  | (k, org) :: rest, s =>
    let r := inner fn k (span org) ⟨point, s.opt, s.best⟩
    outer fn point span rest ⟨r.opt, s.made ++ [(k, r.newParams)], r.best⟩

/-- The dictionary a reference denotes at the end. -/
def deref (point : Params T) (made : List (String × Params T)) : Ref → Params T
  | .caller => point
  | .made k => match made.find? (·.1 = k) with
    | some kv => kv.2
    | none => point

/-- optimization.py:8-36, `coordinate_descent`; `span` is the list of trial values for a value (`np.linspace` from
`(1-percentage)` to `(1+percentage)` times the value). -/
def coordinateDescent (point : Params T) (fn : Params T → V) (best : V) (span : T → List T) : Params T × V :=
  let s := outer fn point span point ⟨.caller, [], best⟩
  (deref point s.made s.opt, s.best)

/-- optimization.py:26-27, the trial values. -/
def trialValues {T : Type} [Scalar T] (percentage : T) (granularity : Nat) (org : T) : List T :=
  PyGeneral.linspace ((1 - percentage) * org) ((1 + percentage) * org) granularity

end PyOptim

/-! ## solvers.py -/

/-- solvers.py:8-13, `RootFinder` (the dtype of the array is left out). -/
structure RootFinder (T : Type) where
  start : T
  stop : T
  step : T
  xtol : T
  roots : List T

namespace RootFinder
variable {T : Type} [Scalar T]

/-- solvers.py:8-13, the constructor. -/
def mk' (start stop step xtol : T) : RootFinder T := ⟨start, stop, step, xtol, []⟩

/-- solvers.py:15-21, `add_to_roots`. -/
def addToRoots (r : RootFinder T) (x : T) : RootFinder T :=
  if Scalar.ltb x r.start || Scalar.ltb r.stop x then r
  else if r.roots.any fun y => Scalar.ltb (Scalar.abs (y - x)) r.xtol then r
  else { r with roots := r.roots ++ [x] }

/-- The loop of solvers.py:26-34 over the remaining grid points. `solve x0` is `find_root(f, x0)`: a value if `scipy.optimize.root`
reports success. -/
def loop (solve : T → Option T) : List T → T → RootFinder T → RootFinder T
  | [], _, r => r
  | x0 :: xs, current, r =>
    if Scalar.ltb x0 current then loop solve xs current r
    else
      match solve x0 with
      | none => loop solve xs current r
      | some x => loop solve xs x (r.addToRoots x)

/-- solvers.py:23-35, `find`: the list of roots and the object. A zero step raises `ZeroDivisionError`, a negative number of steps
`ValueError`, `int` of an infinite or undefined quotient raises too (`Scalar.toInt` is limited to 32 bits, Python's `int` is not; the
grid of such a scan would not fit in memory). -/
def find (r : RootFinder T) (solve : T → Option T) : Except Err (List T × RootFinder T) :=
  if Scalar.eqb r.step 0 then .error .zeroDivision
  else
    match Scalar.toInt ((r.stop - r.start) / r.step) with
    | none => .error .valueError
    | some n =>
      if n < 0 then .error .valueError
      else
        let r' := loop solve (PyGeneral.linspace r.start (r.stop + r.step) n.toNat) r.start r
        .ok (r'.roots, r')

end RootFinder

/-! ## plotting.py -/

namespace PyPlotting

/-- `itertools.permutations(pool, k)`: ordered selections of `k` different positions. -/
def permutations : List Nat → Nat → List (List Nat)
  | _, 0 => [[]]
  | pool, k + 1 => pool.flatMap fun i => (permutations (pool.erase i) k).map (i :: ·)

variable {α β : Type}

/-- plotting.py:99-116, `unpack_ndim_map`: the coordinate lists and the values. A map is a function of the index tuple; `dims` are
its dimensions. No axes, an axis that is too short or an index outside the map raise `IndexError`. -/
def unpackNdimMap (map : List Nat → β) (dims : List Nat) (axes : List (List α)) : Except Err (List (List α) × List β) :=
  match axes with
  | [] => .error .indexError
  | a0 :: _ =>
    let idx := permutations (List.range a0.length) axes.length
    match idx.mapM fun t => if t.length ≤ dims.length ∧ ∀ p ∈ t.zip dims, p.1 < p.2 then some (map t) else none with
    | none => .error .indexError
    | some values =>
      match (axes.zipIdx).mapM fun ax => idx.mapM fun t => (t[ax.2]?).bind fun i => ax.1[i]? with
      | none => .error .indexError
      | some lists => .ok (lists, values)

end PyPlotting
