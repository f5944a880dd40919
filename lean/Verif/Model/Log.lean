import Verif.Scalar

/-!
# Simulation logs

`std::unordered_map<std::string, std::vector<T>>` as an association list. The iteration order of the map is
not specified by C++ and nothing below depends on the order of the list.
-/

abbrev Log (T : Type) := List (String × List T)

namespace Log
variable {T : Type}

/-- `log[key]`: the column, empty if the key is new. -/
def col : Log T → String → List T
  | [], _ => []
  | (k, v) :: r, key => if k = key then v else col r key

/-- whether the key is present (`find != end`). -/
def has : Log T → String → Bool
  | [], _ => false
  | (k, _) :: r, key => if k = key then true else has r key

/-- `log[key].emplace_back(x)`. -/
def push : Log T → String → T → Log T
  | [], key, x => [(key, [x])]
  | (k, v) :: r, key, x => if k = key then (k, v ++ [x]) :: r else (k, v) :: push r key x

/-- The keys present. -/
def keys (l : Log T) : List String := l.map Prod.fst

/-- Appending a list of (key, value) pairs in order. -/
def pushAll (l : Log T) (ps : List (String × T)) : Log T := ps.foldl (fun l p => l.push p.1 p.2) l

end Log
