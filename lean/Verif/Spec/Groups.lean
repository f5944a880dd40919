import Verif.Model.Reservoir
import Verif.Spec.Fields
import Verif.Spec.Stacks

/-!
Specifications for groups and reservoirs.
-/

namespace Spec

/-- magnetic moment of a layer: `Ms/mu0` times its volume, along its magnetisation -/
noncomputable def moment (l : Layer ℝ) : CVec ℝ := smul (l.Ms / (1257 / 10 ^ 9) * (l.thickness * l.cellSurface)) l.mag

/-- distance from the origin -/
noncomputable def away (r : CVec ℝ) : ℝ := Real.sqrt (r.x ^ 2 + r.y ^ 2 + r.z ^ 2)

/-- magnetic field at `r` of a point dipole `M` at the origin: `(3 (M·r) r / |r|⁵ - M / |r|³) / 4π` -/
noncomputable def pointDipole (M r : CVec ℝ) : CVec ℝ :=
  smul (1 / (4 * Real.pi))
    ⟨3 * (M.x * r.x + M.y * r.y + M.z * r.z) * r.x / away r ^ 5 - M.x / away r ^ 3,
     3 * (M.x * r.x + M.y * r.y + M.z * r.z) * r.y / away r ^ 5 - M.y / away r ^ 3,
     3 * (M.x * r.x + M.y * r.y + M.z * r.z) * r.z / away r ^ 5 - M.z / away r ^ 3⟩

/-- the two points are at least 0.1 nm apart -/
def Apart (r1 r2 : CVec ℝ) : Prop := 1e-10 ≤ away (r1 - r2)

/-- matrix times vector -/
def apply (d : Tensor ℝ) (m : CVec ℝ) : CVec ℝ :=
  ⟨d.r0.x * m.x + d.r0.y * m.y + d.r0.z * m.z, d.r1.x * m.x + d.r1.y * m.y + d.r1.z * m.z,
   d.r2.x * m.x + d.r2.y * m.y + d.r2.z * m.z⟩

variable {T : Type} [Scalar T]

/-- the layer of member `i` that takes part in the interaction -/
def memberLayer (g : GroupInteraction T) (i : Nat) : Option (Layer T) := g.junctions[i]?.bind (layerNamed g.topId)

/-- `v` is the interaction of member `k` on member `i` in the state `g` -/
def ActsWith (g : GroupInteraction T) (k i : Nat) (v : CVec T) : Prop :=
  ∃ ri rk li lk, g.positions[i]? = some ri ∧ g.positions[k]? = some rk ∧ memberLayer g i = some li ∧ memberLayer g k = some lk ∧
    g.interaction ri rk li lk = .ok v

/-- `h` is the field at member `i` in the state `g`: the sum over all other members, in their order -/
def FieldAt (g : GroupInteraction T) (i : Nat) (h : CVec T) : Prop :=
  ∃ F : Nat → CVec T, (∀ k < g.junctions.length, k ≠ i → ActsWith g k i (F k)) ∧
    h = (((List.range g.junctions.length).filter (· ≠ i)).map F).foldl (· + ·) .zero

/-- the interaction does not look at the field it has itself written into the layers -/
def Blind (f : Dipole.Interaction T) : Prop :=
  ∀ r1 r2 l1 l2 d1 d2, f r1 r2 { l1 with HreservedDriver := d1 } { l2 with HreservedDriver := d2 } = f r1 r2 l1 l2

/-- `g'` has the members of `g` in the order given by `e`: member `i` of `g'` is member `e i` of `g` -/
structure Reordered (e : Nat → Nat) (g g' : GroupInteraction T) : Prop where
  topId : g'.topId = g.topId
  interaction : g'.interaction = g.interaction
  length : g'.junctions.length = g.junctions.length
  positions : ∀ i < g.junctions.length, g'.positions[i]? = g.positions[e i]?
  members : ∀ i < g.junctions.length, g'.junctions[i]? = g.junctions[e i]?

/-- `e` permutes the numbers below `n` -/
def Shuffles (e : Nat → Nat) (n : Nat) : Prop := (∀ i < n, e i < n) ∧ ∀ i < n, ∀ k < n, e i = e k → i = k

/-- A call on a group object. -/
inductive GroupCall (T : Type)
  | interaction (f : Dipole.Interaction T)
  | clearLogs
  | run (total dt wf : T)

/-- The effect of a call. -/
def GroupCall.exec (g : GroupInteraction T) : GroupCall T → Out (GroupInteraction T) Unit
  | .interaction f => .ok () (g.setInteractionFunction f)
  | .clearLogs => .ok () g.clearLogs
  | .run total dt wf => g.runSimulation total dt wf

/-- The state after a sequence of calls; failed calls are caught. -/
def groupProgram (cs : List (GroupCall T)) (g : GroupInteraction T) : GroupInteraction T := cs.foldl (fun g c => (c.exec g).st) g

/-- layer `p` of member `q` -/
def groupLayer (g : GroupInteraction T) (q p : Nat) : Option (Layer T) := g.junctions[q]?.bind (·.layers[p]?)

/-! ### Reservoirs -/

/-- the entry of element `i` of a matrix stored in rows of `c` entries -/
def atCell {α : Type} (m : List (List α)) (c i : Nat) : Option α := m[i / c]?.bind (·[i % c]?)

/-- A call on a reservoir object. -/
inductive ReservoirCall (T : Type)
  | allExternal (d : AxialDriver T)
  | external (i : Nat) (d : AxialDriver T)
  | anisotropy (i : Nat) (d : ScalarDriver T)
  | clearLogs
  | run (total dt : T)

/-- The effect of a call. -/
def ReservoirCall.exec (r : Reservoir T) : ReservoirCall T → Out (Reservoir T) Unit
  | .allExternal d => .ok () (r.setAllExternalField d)
  | .external i d => r.setLayerExternalField i d
  | .anisotropy i d => r.setLayerAnisotropy i d
  | .clearLogs => .ok () r.clearLogs
  | .run total dt => r.runSimulation total dt

/-- The state of a reservoir with elements at `pos` after some client program; failed calls are caught. -/
def ReservoirReachable (pos : List (List (CVec T))) (r : Reservoir T) : Prop :=
  ∃ layers r0, ∃ cs : List (ReservoirCall T), Reservoir.mk' pos layers = .ok r0 ∧ r = cs.foldl (fun r c => (c.exec r).st) r0

/-- sum of vectors -/
noncomputable def vsum (s : Finset Nat) (f : Nat → CVec ℝ) : CVec ℝ := ⟨∑ i ∈ s, (f i).x, ∑ i ∈ s, (f i).y, ∑ i ∈ s, (f i).z⟩

/-- The dipole field at element `i` of `n`: the sum over all other elements of the field of each, where element `k` at
`R k` has the magnetisation `m k` and the saturation `Ms k` in tesla; times the volume `V` of element `i`. -/
noncomputable def reservoirField (n i : Nat) (R m : Nat → CVec ℝ) (Ms : Nat → ℝ) (V : ℝ) : CVec ℝ :=
  smul V (vsum ((Finset.range n).erase i) fun k => pointDipole (smul (Ms k / (1257 / 10 ^ 9)) (m k)) (R i - R k))

/-- What the code adds up instead: the tensor of the `k`-th *other* element is combined with the magnetisation and the
saturation of element number `k`. -/
noncomputable def misalignedField (n i : Nat) (R m : Nat → CVec ℝ) (Ms : Nat → ℝ) (V : ℝ) : CVec ℝ :=
  smul V (vsum (Finset.range (n - 1)) fun k =>
    pointDipole (smul (Ms k / (1257 / 10 ^ 9)) (m k)) (R i - R (if k < i then k else k + 1)))

/-- The state of the elements of a reservoir: element `i` of `n` is `L i`. -/
def Elements (r : Reservoir T) (n : Nat) (L : Nat → Layer T) : Prop :=
  r.rows * r.cols = n ∧ ∀ i < n, atCell r.layers r.cols i = some (L i)

/-- name of the column of element `i` in rows of `c`, for an axis -/
def cellColumn (c i : Nat) (axis : String) : String := "m_" ++ toString (i / c) ++ "_" ++ toString (i % c) ++ axis

/-- the names of all columns of `n` elements in rows of `c` -/
def reservoirColumns (c n : Nat) : List String :=
  "time" :: (List.range n).flatMap fun i => [cellColumn c i "_x", cellColumn c i "_y", cellColumn c i "_z"]

end Spec
