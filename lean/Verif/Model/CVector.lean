import Verif.Scalar

/-!
# Model of `core/cvector.hpp`

Three-component vectors. In-place operators are modelled as functions returning the new value.
-/

/-- cvector.hpp:11, enum `Axis { xaxis, yaxis, zaxis, all, none }`. -/
inductive Axis | xaxis | yaxis | zaxis | all | none
  deriving DecidableEq, Repr

/-- cvector.hpp:13-16, class `CVector`. -/
@[ext] structure CVec (T : Type) where
  x : T
  y : T
  z : T
  deriving DecidableEq

namespace CVec
variable {T : Type} [Scalar T]

/-- cvector.hpp:17-21, default constructor. -/
def zero : CVec T := ⟨0, 0, 0⟩

/-- cvector.hpp:23-31, construction from a list; throws unless it has three entries. -/
def ofList (v : List T) : Except Err (CVec T) :=
  match v with
  | [a, b, c] => .ok ⟨a, b, c⟩
  | _ => .error .badLength

/-- cvector.hpp:45-50, construction from a generator: x, y, z are three consecutive draws. The generator
is a stream and a position; the new position is returned. -/
def ofStream (s : Nat → T) (pos : Nat) : CVec T × Nat :=
  (⟨s pos, s (pos + 1), s (pos + 2)⟩, pos + 3)

/-- cvector.hpp:52-57 and 66-76 (`+=`, `+`). -/
instance : Add (CVec T) := ⟨fun a b => ⟨a.x + b.x, a.y + b.y, a.z + b.z⟩⟩
/-- cvector.hpp:59-64 and 83-92 (`-=`, `-`). -/
instance : Sub (CVec T) := ⟨fun a b => ⟨a.x - b.x, a.y - b.y, a.z - b.z⟩⟩

/-- cvector.hpp:78-81, adding a scalar to every component. -/
def addScalar (v : CVec T) (s : T) : CVec T := ⟨v.x + s, v.y + s, v.z + s⟩

/-- cvector.hpp:100-110, `==`. -/
def eqb (a b : CVec T) : Bool :=
  Scalar.eqb a.x b.x && Scalar.eqb a.y b.y && Scalar.eqb a.z b.z

/-- cvector.hpp:112-122, `!=`. -/
def neqb (a b : CVec T) : Bool :=
  if Scalar.eqb a.x b.x && Scalar.eqb a.y b.y && Scalar.eqb a.z b.z then false else true

/-- cvector.hpp:124-132 and 138-143, vector times scalar. -/
instance : HMul (CVec T) T (CVec T) := ⟨fun v s => ⟨v.x * s, v.y * s, v.z * s⟩⟩
/-- cvector.hpp:134-136, scalar times vector. -/
instance : HMul T (CVec T) (CVec T) := ⟨fun s v => ⟨s * v.x, s * v.y, s * v.z⟩⟩

/-- cvector.hpp:145-159, division by a scalar; throws on zero. -/
def div (v : CVec T) (s : T) : Except Err (CVec T) :=
  if Scalar.eqb s 0 then .error .divZero
  else .ok ⟨v.x / s, v.y / s, v.z / s⟩

/-- cvector.hpp:161-177, indexing: 0 and 1 are x and y, *every* other index is z. -/
def get (v : CVec T) (i : Int) : T := if i = 0 then v.x else if i = 1 then v.y else v.z

/-- cvector.hpp:179-183, Euclidean length. -/
def length (v : CVec T) : T :=
  Scalar.sqrt (Scalar.powi v.x 2 + Scalar.powi v.y 2 + Scalar.powi v.z 2)

/-- cvector.hpp:185-192, normalisation; a zero vector is left alone. -/
def normalize (v : CVec T) : CVec T :=
  let mag := v.length
  if Scalar.eqb mag 0 then v else ⟨v.x / mag, v.y / mag, v.z / mag⟩

/-- cvector.hpp:193-195, component setters. -/
def setX (v : CVec T) (a : T) : CVec T := { v with x := a }
def setY (v : CVec T) (a : T) : CVec T := { v with y := a }
def setZ (v : CVec T) (a : T) : CVec T := { v with z := a }

/-- cvector.hpp:197, conversion to a list. -/
def toList (v : CVec T) : List T := [v.x, v.y, v.z]

/-- junction.hpp:73-79, `c_cross`. -/
def cross (a b : CVec T) : CVec T :=
  ⟨a.y * b.z - a.z * b.y, a.z * b.x - a.x * b.z, a.x * b.y - a.y * b.x⟩

/-- junction.hpp:81-83, `c_dot`. -/
def dot (a b : CVec T) : T := a.x * b.x + a.y * b.y + a.z * b.z

end CVec
