import Verif.Scalar

/-!
# Model of `cmtj/models/oersted.py`

Simplifications:
* The three-dimensional array of blocks is the list of its elements in the order of `flatten()` (x slowest, z fastest).
* Indices given to the region functions are natural numbers (`-1`, "to the top", is `none`); Python's other negative indices wrap
  around and are not modelled.
* The sizes are arguments here; `math.ceil(max / d)` is in `mk'` over the reals.
* Borders and labels, printing and plotting are left out.
* A zero distance raises `ZeroDivisionError` (numba's default error model); the state at the throw is not described.
-/

namespace Oersted
variable {T : Type} [Scalar T]

/-- oersted.py:24-41, `Block` with the coordinates set by `__post_init__`. -/
structure Block (T : Type) where
  ix : Nat
  iy : Nat
  iz : Nat
  x : T
  y : T
  z : T
  area : T
  dl : T
  Hlocal : T
  I : T

/-- oersted.py:35-41, `Block.__post_init__`. -/
def Block.mk' (ix iy iz : Nat) (dx dy dz : T) : Block T :=
  { ix, iy, iz
    x := Scalar.lit ((ix + 1 : Nat) : ℚ) * dx / 2.0
    y := Scalar.lit ((iy + 1 : Nat) : ℚ) * dy / 2.0
    z := Scalar.lit ((iz + 1 : Nat) : ℚ) * dz / 2.0
    area := dx * dy
    dl := dz
    Hlocal := 0
    I := 0 }

/-- oersted.py:13-15, `distance`. -/
def distance (p q : T × T) : T := Scalar.sqrt (Scalar.powi (p.1 - q.1) 2 + Scalar.powi (p.2 - q.2) 2)

/-- oersted.py:18-21, `ampere_law`. -/
def ampereLaw (I : T) (p q : T × T) : Except Err T :=
  let d := Scalar.pi * 2 * distance p q
  if Scalar.eqb d 0 then .error .zeroDivision else .ok (I / d)

/-- oersted.py:62-63, `Block.ampere_law`. -/
def Block.ampere (b other : Block T) : Except Err T := ampereLaw other.I (b.x, b.y) (other.x, other.y)

/-- oersted.py:55-60, `Block.biot_savart`. No function of the library calls it. -/
def Block.biotSavart (b other : Block T) : T :=
  let r := distance (b.x, b.y) (other.x, other.y)
  if Scalar.ltb r 1e-15 then 0.0
  else
    let H := other.I * other.area * b.dl / Scalar.powi r 2
    H / (4 * Scalar.pi)

/-- oersted.py:69-86, `Structure`. -/
structure Structure (T : Type) where
  maxX : T
  maxY : T
  maxZ : T
  dx : T
  dy : T
  dz : T
  Xsize : Nat
  Ysize : Nat
  Zsize : Nat
  blocks : List (Block T)

/-- oersted.py:107-113, `init_blocks`. -/
def initBlocks (nx ny nz : Nat) (dx dy dz : T) : List (Block T) :=
  (List.range nx).flatMap fun ix => (List.range ny).flatMap fun iy => (List.range nz).map fun iz => Block.mk' ix iy iz dx dy dz

/-- oersted.py:70-86, the constructor over the reals (positive cell sizes; a zero size divides by zero). `ampere` is whether the
method is "ampere". -/
noncomputable def Structure.mk' (maxX maxY maxZ dx dy dz : ℝ) (ampere : Bool) : Except Err (Structure ℝ) :=
  if dx = 0 ∨ dy = 0 ∨ dz = 0 then .error .zeroDivision
  else
    let nx := ⌈maxX / dx⌉
    let ny := ⌈maxY / dy⌉
    let nz := max ⌈maxZ / dz⌉ 1
    if ampere ∧ 1 < nz then .error .valueError
    else if nx < 0 ∨ ny < 0 then .error .valueError
    else .ok ⟨maxX, maxY, maxZ, dx, dy, dz, nx.toNat, ny.toNat, nz.toNat, initBlocks nx.toNat ny.toNat nz.toNat dx dy dz⟩

/-- oersted.py:115-116, `reset`. -/
def Structure.reset (s : Structure T) : Structure T := { s with blocks := initBlocks s.Xsize s.Ysize s.Zsize s.dx s.dy s.dz }

/-- oersted.py:88-97, `set_region_I_idx`. -/
def Structure.setRegionIdx (s : Structure T) (I : T) (minY : Nat) (maxY : Option Nat) : Except Err (Structure T) :=
  let maxY := maxY.getD s.Ysize
  let n : Int := s.Xsize * ((min (maxY + 1) s.Ysize : Nat) - (minY : Int))
  if n = 0 then .error .zeroDivision
  else
    let Imag := I / Scalar.lit (n : ℚ)
    .ok { s with blocks := s.blocks.map fun b => if minY ≤ b.iy ∧ b.iy < min maxY s.Ysize then { b with I := Imag } else b }

/-- The inner loop of `compute_blocks`, oersted.py:121-128: block `b` against the blocks after it. -/
def interact (b : Block T) : List (Block T) → Except Err (Block T × List (Block T))
  | [] => .ok (b, [])
  | o :: os => do
    let h1 ← b.ampere o
    let h2 ← o.ampere b
    let (b', os') ← interact { b with Hlocal := b.Hlocal + h1 } os
    .ok (b', { o with Hlocal := o.Hlocal + h2 } :: os')

/-- The outer loop of `compute_blocks`, oersted.py:120-128. The first argument bounds the number of blocks. -/
def computeLoop : Nat → List (Block T) → Except Err (List (Block T))
  | _, [] => .ok []
  | 0, _ :: _ => .error .fuel
  | n + 1, b :: bs => do
    let (b', bs') ← interact b bs
    let rest ← computeLoop n bs'
    .ok (b' :: rest)

/-- oersted.py:118-128, `compute_blocks`. -/
def Structure.computeBlocks (s : Structure T) : Except Err (Structure T) :=
  match computeLoop s.blocks.length s.blocks with
  | .ok bs => .ok { s with blocks := bs }
  | .error e => .error e

/-- oersted.py:135-143, `get_region_contributions_idx`. -/
def Structure.regionContribution (s : Structure T) (minY : Nat) (maxY : Option Nat) : T :=
  ((s.blocks.filter fun b => minY ≤ b.iy ∧ b.iy < min (maxY.getD s.Ysize) s.Ysize).map Block.Hlocal).foldl (· + ·) 0

/-- oersted.py:153-169, `compute_region_contribution_idx`. -/
def Structure.contributionBetween (s : Structure T) (srcMin srcMax tgtMin tgtMax : Nat) : Except Err T :=
  let src := s.blocks.filter fun b => srcMin ≤ b.iy ∧ b.iy < srcMax
  let tgt := s.blocks.filter fun b => tgtMin ≤ b.iy ∧ b.iy < tgtMax
  src.foldlM (fun total a => tgt.foldlM (fun total b =>
    if a.ix = b.ix ∧ a.iy = b.iy ∧ a.iz = b.iz then .ok total else (b.ampere a).map (total + ·)) total) 0

/-- oersted.py:130-133, `__ycoords2indx` over the reals: the first index, and the second as an index or, for -1, as the coordinate
`maxY` itself (a float). -/
noncomputable def Structure.coords2idx (s : Structure ℝ) (minY : ℝ) (maxY : Option ℝ) : Int × (Int ⊕ ℝ) :=
  (⌈minY / s.dy⌉, match maxY with
    | none => .inr s.maxY
    | some y => .inl ⌈y / s.dy⌉)

/-- oersted.py:99-105, `set_region_I` over the reals. With the default upper end `set_region_I_idx` runs with the float `maxY` in the
place of the index: the division (line 91) goes through, then `range` gets the smaller of `maxY` and the size, and refuses a float
(`min` returns its first argument when both are equal). Negative ends, which Python would wrap around (or take for the default),
are out of scope and reported as an error here. -/
noncomputable def Structure.setRegion (s : Structure ℝ) (I minY : ℝ) (maxY : Option ℝ) : Except Err (Structure ℝ) :=
  match s.coords2idx minY maxY with
  | (lo, .inl hi) => if lo < 0 ∨ hi < 0 then .error .indexError else s.setRegionIdx I lo.toNat (some hi.toNat)
  | (lo, .inr y) =>
    if lo < 0 then .error .indexError
    else if (s.Xsize : ℝ) * (min (y + 1) s.Ysize - lo) = 0 then .error .zeroDivision
    else if y ≤ s.Ysize then .error .typeError
    else s.setRegionIdx I lo.toNat (some s.Ysize)

end Oersted
