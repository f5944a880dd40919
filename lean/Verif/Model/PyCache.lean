import Verif.Model.PySb

/-!
# Model of the cached methods of `cmtj/models/general_sb.py`

`functools.lru_cache` keeps the results of the latest calls in a dictionary. A look-up compares the stored hash with the hash of the
arguments as they are now, then the arguments themselves; both go through `__hash__` and `__eq__` of the objects, which can be edited
between the calls. `__hash__` is the hash of the text of the object, which `@dataclass` builds from the declared fields.

Simplifications:
* A text is a list of characters. How Python prints a number and how sympy prints a matrix entry are the functions of a `Printer`;
  a matrix is written `Matrix([[x], [y], [z]])`.
* Objects live in a heap, a function from addresses. An edit is any function on the heap. Layers are part of the solver that holds
  them: an edit of a shared layer edits all its solvers.
* The symbols of a layer follow from its id; the id is not edited on its own.
* The hash of a tuple of arguments is one function of what the hashes of the entries are made from. A sympy `Matrix` can be changed
  and has no hash; an `ImmutableMatrix` hashes by its entries. Symbols as entries are not modelled.
* A layer and a dynamic layer that agree in all fields they share compare equal (in Python the comparison fails).
-/

namespace SB

/-- A piece of text. -/
abbrev Text := List Char

/-- How numbers are written: `repr` of a float, and an entry of a sympy matrix. -/
structure Printer (T : Type) where
  num : T → Text
  entry : T → Text

/-- A fixed piece of text. -/
@[irreducible] def lit (s : String) : Text := s.toList

section text
variable {T : Type}

/-- The entries of a list up to its closing bracket, as Python's `repr` of a list writes them. -/
def items {α : Type} (f : α → Text) : List α → Text
  | [] => [']']
  | [a] => f a ++ [']']
  | a :: b :: l => f a ++ (',' :: ' ' :: items f (b :: l))

/-- `repr` of a list. -/
def listText {α : Type} (f : α → Text) (l : List α) : Text := '[' :: items f l

/-- `repr` of a value that may be `None`. -/
def optText {α : Type} (f : α → Text) : Option α → Text
  | none => ['N', 'o', 'n', 'e']
  | some a => f a

variable (P : Printer T)

/-- general.py:38-39, `VectorObj.__repr__`. -/
def vectorText (v : VectorObj T) : Text :=
  'V' :: (lit "ectorObj(theta=" ++ (P.num v.theta ++ (',' :: (lit " phi=" ++ (P.num v.phi ++ (',' :: (lit " mag=" ++
    (P.num v.mag ++ [')']))))))))

/-- A sympy column with three entries. -/
def matrixText (v : CVec T) : Text :=
  'M' :: (lit "atrix([[" ++ (P.entry v.x ++ (']' :: (lit ", [" ++ (P.entry v.y ++ (']' :: (lit ", [" ++
    (P.entry v.z ++ (']' :: lit "])")))))))))

/-- general_sb.py:152-170 and 264-268, the fields `@dataclass` prints behind those of `LayerSB`. -/
def dynText (d : Dyn T) : Text :=
  lit " alpha=" ++ (P.num d.alpha ++ (',' :: (lit " torque_par=" ++ (P.num d.torquePar ++ (',' ::
    (lit " torque_perp=" ++ (P.num d.torquePerp ++ [')'])))))))

/-- general_sb.py:152-170, the text `@dataclass` gives a layer, from behind the class name to the demagnetisation. -/
def fieldsText (l : Layer T) : Text :=
  lit "(_id=" ++ ((toString l.id).toList ++ (',' :: (lit " thickness=" ++ (P.num l.thickness ++ (',' :: (lit " Kv=" ++
    (vectorText P l.Kv ++ (',' :: (lit " Ks=" ++ (P.num l.Ks ++ (',' :: (lit " Ms=" ++ (P.num l.Ms ++ (',' ::
    (lit " Hdmi=" ++ (matrixText P l.Hdmi ++ (',' :: (lit " Ndemag=" ++ matrixText P l.Ndemag))))))))))))))))))

/-- general_sb.py:152-170 and 264-268, `str` of a layer: `LayerSB(...)` or `LayerDynamic(...)`. -/
def layerText (l : Layer T) : Text :=
  match l.dyn with
  | none => 'L' :: (lit "ayer" ++ ('S' :: 'B' :: (fieldsText P l ++ [')'])))
  | some d => 'L' :: (lit "ayer" ++ ('D' :: (lit "ynamic" ++ (fieldsText P l ++ (',' :: dynText P d)))))

/-- A dipole tensor as the user gives it: three vectors. -/
abbrev Tensor (T : Type) := VectorObj T × VectorObj T × VectorObj T

/-- `repr` of a dipole tensor, a list of three vectors. -/
def tensorText (d : Tensor T) : Text := listText (vectorText P) [d.1, d.2.1, d.2.2]

/-- general_sb.py:321-341, a solver object: what the energy is built from, and the dipole tensors as given. -/
structure Held (T : Type) where
  solver : Solver T
  ndipole : Option (List (Tensor T))

/-- general_sb.py:321-341, `str` of a solver: the declared fields. `dipoleMatrix` is not one of them. -/
def solverText (s : Held T) : Text :=
  lit "Solver(layers=" ++ (listText (layerText P) s.solver.layers ++ (',' :: (lit " J1=" ++
    (listText P.num s.solver.J1 ++ (',' :: (lit " J2=" ++ (listText P.num s.solver.J2 ++ (',' :: (lit " H=" ++
    (optText (vectorText P) s.solver.H ++ (',' :: (lit " ilD=" ++ (listText (matrixText P) s.solver.ilD ++ (',' ::
    (lit " Ndipole=" ++ (optText (listText (tensorText P)) s.ndipole ++ [')']))))))))))))))))

end text

/-! ## The cache -/

/-- `functools.lru_cache(size)` around a method: `text` is what the hash of the arguments is made from (`none` if an argument has no
hash), `same` the comparison of the
arguments of a stored call with those of a new one, `run` the method; the first argument is the heap at the time. -/
structure Cached (S C K V : Type) where
  size : Nat
  text : S → C → Option K
  hash : K → Int
  same : S → C → C → Bool
  run : S → C → Except Err V

/-- One stored call. -/
structure Entry (C V : Type) where
  hash : Int
  call : C
  value : V

section cache
variable {S C K V : Type} (M : Cached S C K V)

/-- Does a stored entry answer the call with the hash `h`. -/
def Cached.answers (s : S) (c : C) (h : Int) (e : Entry C V) : Bool := e.hash == h && M.same s e.call c

/-- `lru_cache`: arguments without a hash raise; a hit moves the entry to the front and returns its value; on a miss the method runs, an exception is passed on and
not stored, a result goes to the front and the oldest beyond the size leave. -/
def Cached.call (s : S) (c : C) (es : List (Entry C V)) : Except Err V × List (Entry C V) :=
  match M.text s c with
  | none => (.error .typeError, es)
  | some k =>
    match es.find? (M.answers s c (M.hash k)) with
    | some e => (.ok e.value, e :: es.eraseP (M.answers s c (M.hash k)))
    | none =>
      match M.run s c with
      | .error err => (.error err, es)
      | .ok v => (.ok v, (⟨M.hash k, c, v⟩ :: es).take M.size)

/-- What a program does: edit the objects, or call the method. -/
inductive Act (S C : Type)
  | edit (f : S → S)
  | call (c : C)

/-- A program: the results of its calls and the cache afterwards. -/
def Cached.session : List (Act S C) → S → List (Entry C V) → List (Except Err V) × List (Entry C V)
  | [], _, es => ([], es)
  | .edit f :: as, s, es => Cached.session as (f s) es
  | .call c :: as, s, es =>
    let (r, es') := M.call s c es
    let (rs, es'') := Cached.session as s es'
    (r :: rs, es'')

end cache

section methods
variable {T : Type} [Scalar T]

/-- The argument `H` of `create_energy`: a `VectorObj`, an `ImmutableMatrix` or a `Matrix`. -/
inductive FieldArg (T : Type)
  | vector (v : VectorObj T)
  | column (v : CVec T)
  | mutable (v : CVec T)

/-- A call `solver.create_energy(...)`: the address of the solver, the way the arguments are written (a keyword and a position do not
share an entry), and the arguments. -/
structure EnergyCall (T : Type) where
  self : Nat
  form : Nat
  H : Option (FieldArg T)
  volumetric : Bool

/-- general_sb.py:398-449, the method `create_energy` without its cache. A `VectorObj` is not turned into a column here, and sympy's
`dot` rejects it. -/
def createEnergy (s : Solver T) : Option (FieldArg T) → Except Err ((Coord → T) → T)
  | none =>
    match s.H with
    | none => .error .attribute
    | some h => .ok (s.energy h.getCartesian)
  | some (.vector _) => .error .typeError
  | some (.column H) => .ok (s.energy H)
  | some (.mutable H) => .ok (s.energy H)

/-- What the hash of the arguments of `create_energy` is made from (general_sb.py:940-941, general.py:41-42; a column hashes by its
entries). -/
structure EnergyKey (T : Type) where
  self : Text
  form : Nat
  vector : Option Text
  column : Option (CVec T)
  volumetric : Bool

/-- The key of a call. -/
def energyKey (P : Printer T) (s : Nat → Held T) (c : EnergyCall T) : Option (EnergyKey T) :=
  let key (v : Option Text) (m : Option (CVec T)) : EnergyKey T := ⟨solverText P (s c.self), c.form, v, m, c.volumetric⟩
  match c.H with
  | none => some (key none none)
  | some (.vector v) => some (key (some (vectorText P v)) none)
  | some (.column v) => some (key none (some v))
  | some (.mutable _) => none

/-- Comparison of two field arguments (general.py:44-45, sympy's comparison of columns). -/
def sameField : Option (FieldArg T) → Option (FieldArg T) → Bool
  | none, none => true
  | some (.vector a), some (.vector b) => a.eqb b
  | some (.column a), some (.column b) => Scalar.eqb a.x b.x && Scalar.eqb a.y b.y && Scalar.eqb a.z b.z
  | _, _ => false

/-- general_sb.py:398-403 with 940-944, the cached `create_energy` (three results are kept). A tuple of arguments is compared entry by
entry, the same object first. -/
def energyCache (P : Printer T) (hash : EnergyKey T → Int) : Cached (Nat → Held T) (EnergyCall T) (EnergyKey T) ((Coord → T) → T) where
  size := 3
  text := energyKey P
  hash := hash
  same s a b := (a.self == b.self || decide (solverText P (s a.self) = solverText P (s b.self))) && a.form == b.form &&
    sameField a.H b.H && a.volumetric == b.volumetric
  run s c := createEnergy (s c.self).solver c.H

/-- A call `layer.total_symbolic_layer_energy(...)`; the layers are given by their addresses. -/
structure LayerCall (T : Type) where
  self : Nat
  H : CVec T
  J1top : T
  J1bottom : T
  J2top : T
  J2bottom : T
  top : Option Nat
  down : Option Nat

/-- What the hash of its arguments is made from (general_sb.py:251-252; numbers and columns hash by value). -/
structure LayerKey (T : Type) where
  self : Text
  H : CVec T
  J1top : T
  J1bottom : T
  J2top : T
  J2bottom : T
  top : Option Text
  down : Option Text

/-- The key of a call. -/
def layerKey (P : Printer T) (s : Nat → Layer T) (c : LayerCall T) : Option (LayerKey T) :=
  some ⟨layerText P (s c.self), c.H, c.J1top, c.J1bottom, c.J2top, c.J2bottom, c.top.map fun a => layerText P (s a),
    c.down.map fun a => layerText P (s a)⟩

/-- general_sb.py:254-261 and 314-315, `==` of two layers: of two dynamic ones with the damping. -/
def Layer.same (a b : Layer T) : Bool :=
  match a.dyn, b.dyn with
  | some d, some e => a.eqDynamic b d e
  | _, _ => a.eqLayer b

/-- general_sb.py:199-227 with 251-261, the cached `total_symbolic_layer_energy` (three results are kept). -/
def layerCache (P : Printer T) (hash : LayerKey T → Int) : Cached (Nat → Layer T) (LayerCall T) (LayerKey T) ((Coord → T) → T) where
  size := 3
  text := layerKey P
  hash := hash
  same s a b :=
    let one (x y : Nat) : Bool := x == y || (s x).same (s y)
    let opt (x y : Option Nat) : Bool := match x, y with
      | none, none => true
      | some x, some y => one x y
      | _, _ => false
    one a.self b.self && sameField (some (.column a.H)) (some (.column b.H)) && Scalar.eqb a.J1top b.J1top &&
      Scalar.eqb a.J1bottom b.J1bottom && Scalar.eqb a.J2top b.J2top && Scalar.eqb a.J2bottom b.J2bottom && opt a.top b.top &&
      opt a.down b.down
  run s c := .ok ((s c.self).totalEnergy c.H c.J1top c.J1bottom c.J2top c.J2bottom (c.top.map s) (c.down.map s))

/-- general_sb.py:702-724, `analytical_roots` of the solver at an address: the energy for a symbolic field (`sym.Matrix`), then what is
computed from it. -/
def analyticalRoots {R : Type} (P : Printer T) (hash : EnergyKey T → Int) (s : Nat → Held T) (es : List (Entry (EnergyCall T) ((Coord → T) → T)))
    (self : Nat) (Hsym : CVec T) (rest : ((Coord → T) → T) → Except Err R) : Except Err R :=
  match ((energyCache P hash).call s ⟨self, 1, some (.mutable Hsym), false⟩ es).1 with
  | .error e => .error e
  | .ok U => rest U

/-- general_sb.py:745-803, `analytical_field_scan` from its beginning: first the roots, then the scan with them. -/
def analyticalScan {R : Type} (P : Printer T) (hash : EnergyKey T → Int) (s : Nat → Held T)
    (es : List (Entry (EnergyCall T) ((Coord → T) → T))) (self : Nat) (Hsym : CVec T) (rest : ((Coord → T) → T) → Except Err R)
    (descend : VectorObj T → List T → List T) (roots : R → VectorObj T → List T → List T) (Hrange : List (VectorObj T))
    (init : Option (List T)) : Except Err (List (List T × List T × VectorObj T) × List (VectorObj T)) :=
  match analyticalRoots P hash s es self Hsym rest with
  | .error e => .error e
  | .ok r => fieldScan (s self).solver.layers.length descend (roots r) Hrange init

end methods

end SB
