import Verif.Model.Log
import Verif.Model.Exec
import Verif.Model.CVector

/-!
# Model of `cmtj/utils/energy.py`

The log is the dictionary returned by `getLog`. The order in which Python iterates over a set of strings is not specified: the field keys
are given as a list, `IsFieldKeys` says which lists are possible. Arrays of shape `[3, n]` are lists of vectors. Division of an array by 0.0
gives infinities and no exception.
-/

namespace Energy
variable {T : Type} [Scalar T]

/-- `sub in k`. -/
def contains (k sub : String) : Bool := decide (sub.toList <:+: k.toList)

/-- `k.replace("_mx", "")`. -/
def removeMx : List Char → List Char
  | '_' :: 'm' :: 'x' :: r => removeMx r
  | c :: r => c :: removeMx r
  | [] => []

/-- `k[:-1]`. -/
def chop (k : String) : String := String.ofList k.toList.dropLast

/-- `k.split("_")[0]`, energy.py:32. -/
def firstPart (k : String) : String := String.ofList (k.toList.takeWhile (· != '_'))

/-- energy.py:22, the possible values of `field_keys`. -/
def IsFieldKeys (log : Log T) (ks : List String) : Prop :=
  ks.Nodup ∧ ∀ k, k ∈ ks ↔ ∃ key ∈ log.keys, contains key "_H" = true ∧ chop key = k

/-- `np.asarray([log[a], log[b], log[c]])`, energy.py:24 and 34-40. -/
def vectors (log : Log T) (a b c : String) : Except Err (List (CVec T)) :=
  if !log.has a then .error .keyError
  else if !log.has b then .error .keyError
  else if !log.has c then .error .keyError
  else if (log.col a).length = (log.col b).length ∧ (log.col b).length = (log.col c).length then
    .ok (List.zipWith (fun x (p : T × T) => ⟨x, p.1, p.2⟩) (log.col a) ((log.col b).zip (log.col c)))
  else .error .valueError

/-- energy.py:23-24, `mag_vectors`, from the keys of the log. -/
def magVectors (log : Log T) : List String → Except Err (List (String × List (CVec T)))
  | [] => .ok []
  | key :: keys =>
    if contains key "_mx" then
      let k := String.ofList (removeMx key.toList)
      match vectors log (k ++ "_mx") (k ++ "_my") (k ++ "_mz") with
      | .error e => .error e
      | .ok vs =>
        match magVectors log keys with
        | .error e => .error e
        | .ok r => .ok ((k, vs) :: r)
    else magVectors log keys

/-- energy.py:45-63: `-np.sum(m * field_vector, axis=0) / d`, with numpy's broadcasting of the time axis. -/
def energyOf (m h : List (CVec T)) (d : T) : Except Err (List T) :=
  let one := fun (a b : CVec T) => -(a.x * b.x + a.y * b.y + a.z * b.z) / d
  if m.length = h.length then .ok (List.zipWith one m h)
  else
    match m, h with
    | [a], h => .ok (h.map (one a))
    | m, [b] => .ok (m.map (one · b))
    | _, _ => .error .valueError

/-- energy.py:14 and 27-30. -/
def divisor (surface thickness : T) (fieldKey : String) : T :=
  if contains fieldKey "J_" then surface else surface * thickness

/-- energy.py:26-41, the loop over the field keys. A key repeated in `mags` carries the same array. -/
def loop (surface thickness : T) (log : Log T) (mags : List (String × List (CVec T))) : List String → Except Err (Log T)
  | [] => .ok []
  | fk :: fks =>
    match mags.find? (·.1 == firstPart fk) with
    | none => .error .keyError
    | some (_, m) =>
      match vectors log (fk ++ "x") (fk ++ "y") (fk ++ "z") with
      | .error e => .error e
      | .ok h =>
        match energyOf m h (divisor surface thickness fk) with
        | .error e => .error e
        | .ok es =>
          match loop surface thickness log mags fks with
          | .error e => .error e
          | .ok r => .ok (("energy_" ++ fk, es) :: r)

/-- energy.py:17-43, `compute_from_log`. -/
def computeFromLog (surface thickness : T) (log : Log T) (fieldKeys : List String) : Except Err (Log T) :=
  match magVectors log log.keys with
  | .error e => .error e
  | .ok mags => loop surface thickness log mags fieldKeys

end Energy
