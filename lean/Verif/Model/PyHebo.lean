import Mathlib.Order.BoundedOrder.Basic
import Mathlib.Data.List.Basic

set_option linter.unusedSectionVars false

/-!
# Fits with HEBO

`cmtj/utils/optimization.py:39-108` and the loop of `view/autofit.py:24-75`.

The optimiser, the simulated function and the error function are arbitrary arguments that may raise. A data frame of
suggestions is the list of its records. The process pool completes its jobs in an arbitrary order. Scores are linearly
ordered with `⊤` for `float("inf")`, so there is no NaN. Printing is a list of reports; the progress bars are left out.
-/

namespace PyHebo

/-- Python exceptions. `hangs` is waiting for a job that never completes. -/
inductive Exn
  | typeError | valueError | unboundLocal | interrupt | hangs
  | raised (text : String)
  deriving DecidableEq

/-- A dictionary of parameters. -/
abbrev Params (V : Type) := List (String × V)

/-- HEBO's optimiser: `suggest(n)`, `observe(rec, errors)`, `y.min()` and `best_x.iloc[0].to_dict()`. -/
structure Optimiser (O V S : Type) where
  suggest : O → Nat → Except Exn (List (Params V) × O)
  observe : O → List (Params V) → List S → Except Exn O
  ymin : O → Except Exn S
  best : O → Except Exn (Params V)

variable {O V R S : Type}

/-- The keyword arguments of `fn(**a, **b)`, optimization.py:48-52: a repeated name is a `TypeError`. -/
def keywords (a b : Params V) : Except Exn (Params V) :=
  if b.any (fun q => a.any (fun p => p.1 == q.1)) then .error .typeError else .ok (a ++ b)

/-- The list comprehension of optimization.py:47-54. -/
def submit (fixed : Params V) : List (Params V) → Except Exn (List (Params V))
  | [] => .ok []
  | s :: ss => do
    let k ← keywords fixed s
    let ks ← submit fixed ss
    .ok (k :: ks)

/-- The pool of optimization.py:46: jobs end in the order `order`, each result goes to its own future. -/
def complete (fn : Params V → Except Exn R) (jobs : List (Params V)) (order : List Nat) : List (Option (Except Exn R)) :=
  order.foldl (fun futures i => match jobs[i]? with
    | some p => futures.set i (some (fn p))
    | none => futures) (jobs.map fun _ => none)

/-- The loop of optimization.py:56-58. -/
def collect (errorFn : R → Except Exn S) : List (Option (Except Exn R)) → Except Exn (List S)
  | [] => .ok []
  | f :: fs => do
    let r ← match f with
      | some result => result
      | none => .error .hangs
    let e ← errorFn r
    let es ← collect errorFn fs
    .ok (e :: es)

/-- optimization.py:39-59, `multiprocess_simulate`. A pool without workers is a `ValueError`. -/
def multiprocessSimulate (fn : Params V → Except Exn R) (errorFn : R → Except Exn S) (order : List Nat)
    (suggestions : List (Params V)) (fixed : Params V) : Except Exn (List S) :=
  if suggestions.length = 0 then .error .valueError
  else do
    let jobs ← submit fixed suggestions
    collect errorFn (complete fn jobs order)

/-- What the loop of `hebo_optimization_loop` carries: the optimiser, `best_mse`, and the printed lines. -/
structure Loop (O V S : Type) where
  opt : O
  bestMse : S
  reports : List (Nat × S × Params V)

variable [LinearOrder S]

/-- optimization.py:90-105, iteration `i`. -/
def iteration (H : Optimiser O V S) (fn : Params V → Except Exn R) (errorFn : R → Except Exn S) (order : List Nat)
    (fixed : Params V) (nSuggestions i : Nat) (l : Loop O V S) : Except Exn (Loop O V S) := do
  let (recs, o1) ← H.suggest l.opt nSuggestions
  let errors ← multiprocessSimulate fn errorFn order recs fixed
  let o2 ← H.observe o1 recs errors
  let val ← H.ymin o2
  if val < l.bestMse then
    let params ← H.best o2
    .ok ⟨o2, val, l.reports ++ [(i, val, params)]⟩
  else .ok ⟨o2, l.bestMse, l.reports⟩

/-- optimization.py:89, iterations `i` to `i + n - 1`. -/
def iterations (H : Optimiser O V S) (fn : Params V → Except Exn R) (errorFn : R → Except Exn S) (order : Nat → List Nat)
    (fixed : Params V) (nSuggestions : Nat) : Nat → Nat → Loop O V S → Except Exn (Loop O V S)
  | _, 0, l => .ok l
  | i, n + 1, l => do
    let l' ← iteration H fn errorFn (order i) fixed nSuggestions i l
    iterations H fn errorFn order fixed nSuggestions (i + 1) n l'

/-- optimization.py:62-106, `hebo_optimization_loop` after the import. It returns the optimiser; the reports are printed. -/
def heboOptimizationLoop [OrderTop S] (H : Optimiser O V S) (fn : Params V → Except Exn R) (errorFn : R → Except Exn S)
    (order : Nat → List Nat) (fixed : Params V) (nIters nSuggestions : Nat) (o : O) : Except Exn (Loop O V S) :=
  iterations H fn errorFn order fixed nSuggestions 1 nIters ⟨o, ⊤, []⟩

/-! ## The fit of the front end -/

/-- `a | b` of dictionaries: entries of `b` replace those of `a`. -/
def union (a b : Params V) : Params V := a.filter (fun p => !b.any (fun q => q.1 == p.1)) ++ b

/-- autofit.py:53-57, the inner loop. `sim` is `simulate_sb_wrapper` with its keyword arguments. -/
def fitErrors (sim : Params V → Except Exn R) (mse : R → Except Exn S) (hvals : V) (fixed : Params V) :
    List (Params V) → Except Exn (List S)
  | [] => .ok []
  | p :: ps => do
    let a ← keywords [("hvals", hvals)] p
    let k ← keywords a fixed
    let r ← sim k
    let e ← mse r
    let es ← fitErrors sim mse hvals fixed ps
    .ok (e :: es)

/-- autofit.py:38-66, one iteration. Only a `ValueError` of the progress text is caught. -/
def fitIteration (H : Optimiser O V S) (sim : Params V → Except Exn R) (mse : R → Except Exn S) (hvals : V) (fixed : Params V)
    (nSuggestions : Nat) (o : O) : Except Exn O := do
  let (recs, o1) ← H.suggest o nSuggestions
  let errors ← fitErrors sim mse hvals fixed recs
  let o2 ← H.observe o1 recs errors
  match H.ymin o2 with
  | .ok _ => .ok o2
  | .error .valueError => .ok o2
  | .error e => .error e

/-- The loop of autofit.py:37-66. -/
def fitIterations (H : Optimiser O V S) (sim : Params V → Except Exn R) (mse : R → Except Exn S) (hvals : V) (fixed : Params V)
    (nSuggestions : Nat) : Nat → O → Except Exn O
  | 0, o => .ok o
  | n + 1, o => do
    let o' ← fitIteration H sim mse hvals fixed nSuggestions o
    fitIterations H sim mse hvals fixed nSuggestions n o'

/-- autofit.py:68-70, the simulation with the best parameters. -/
def fitBest (H : Optimiser O V S) (sim : Params V → Except Exn R) (hvals : V) (fixed : Params V) (o : O) : Except Exn R := do
  let p ← H.best o
  let a ← keywords [("hvals", hvals)] p
  let k ← keywords a fixed
  sim k

/-- autofit.py:36-75, `hebo_fit` after its setup. After an interrupt the name `simulated_data` of line 75 has no value. -/
def heboFit (H : Optimiser O V S) (sim : Params V → Except Exn R) (mse : R → Except Exn S) (hvals : V) (fixed args : Params V)
    (nIters nSuggestions : Nat) (o : O) : Except Exn (O × Option R) :=
  let all := union fixed args
  let body : Except Exn (O × Option R) := do
    let o' ← fitIterations H sim mse hvals all nSuggestions nIters o
    match fitBest H sim hvals all o' with
    | .ok r => .ok (o', some r)
    | .error .valueError => .ok (o', none)
    | .error e => .error e
  match body with
  | .error .interrupt => .error .unboundLocal
  | r => r

end PyHebo
