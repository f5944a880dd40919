import Verif.Model.CVector
import Verif.Model.Exec

/-!
# Model of `core/noise.hpp`

Random draws are arbitrary streams. The FFT filter of `BufferedAlphaNoise::fillBuffer` is modelled separately in
`Model/Colour.lean`; here the contents of the buffer after the `k`-th refill are an arbitrary array.
-/

/-- noise.hpp:138-150, `BufferedAlphaNoise`. `fills k` is the buffer `result` after refill
number `k` (an arbitrary value for each index). -/
structure BufferedAlphaNoise (T : Type) where
  bufferSize : Nat
  scale : T
  fills : Nat → Nat → T
  /-- `internalCounter` -/
  counter : Nat
  /-- how often `fillBuffer` has run -/
  refills : Nat
  /-- the current contents of `result`; before the first fill all zeros (resize) -/
  result : Nat → T

namespace BufferedAlphaNoise
variable {T : Type} [Scalar T]

/-- noise.hpp:161-185, constructor. With `bufferSize = 0` the write to `bufferColoured[0]` (noise.hpp:172) is
out of bounds, so the model refuses it. -/
def mk' (bufferSize : Nat) (scale : T) (fills : Nat → Nat → T) : Except Err (BufferedAlphaNoise T) :=
  if bufferSize = 0 then .error .ub
  else .ok ⟨bufferSize, scale, fills, 0, 0, fun _ => 0⟩

/-- noise.hpp:189-226, `fillBuffer`, with arbitrary new contents (see `Model/Colour.lean` for the filter itself). -/
def fillBuffer (b : BufferedAlphaNoise T) : BufferedAlphaNoise T :=
  { b with result := b.fills b.refills, refills := b.refills + 1 }

/-- noise.hpp:231-239, `tick`. -/
def tick (b : BufferedAlphaNoise T) : T × BufferedAlphaNoise T :=
  let b := if b.counter = 0 then b.fillBuffer else b
  let ret := b.result b.counter
  let b := { b with counter := (b.counter + 1) % b.bufferSize }
  (b.scale * ret, b)

end BufferedAlphaNoise

/-- noise.hpp:242-248: one of the three components of `VectorAlphaNoise`; `none` is a `NullTicker`
(noise.hpp:65-70), whose tick is 0. -/
abbrev Ticker (T : Type) := Option (BufferedAlphaNoise T)

namespace Ticker
variable {T : Type} [Scalar T]
/-- virtual `tick()`: noise.hpp:69 or 231-239. -/
def tick (t : Ticker T) : T × Ticker T :=
  match t with
  | none => (0, none)
  | some b => (b.tick.1, some b.tick.2)
end Ticker

/-- noise.hpp:242-248. -/
structure VectorAlphaNoise (T : Type) where
  scale : T
  cx : Ticker T
  cy : Ticker T
  cz : Ticker T
  prevSample : CVec T
  currentSample : CVec T
  normalized : Bool

namespace VectorAlphaNoise
variable {T : Type} [Scalar T]

/-- noise.hpp:251-288, constructor. The axis `none` (and any invalid value) throws. `sx sy sz` are the random
contents of the component buffers. -/
def mk' (bufferSize : Nat) (scale : T) (axis : Axis) (sx sy sz : Nat → Nat → T) :
    Except Err (VectorAlphaNoise T) :=
  match axis with
  | .all => do
    let x ← BufferedAlphaNoise.mk' bufferSize 1 sx
    let y ← BufferedAlphaNoise.mk' bufferSize 1 sy
    let z ← BufferedAlphaNoise.mk' bufferSize 1 sz
    .ok ⟨scale, some x, some y, some z, .zero, .zero, true⟩
  | .xaxis => do
    let x ← BufferedAlphaNoise.mk' bufferSize 1 sx
    .ok ⟨scale, some x, none, none, .zero, .zero, false⟩
  | .yaxis => do
    let y ← BufferedAlphaNoise.mk' bufferSize 1 sy
    .ok ⟨scale, none, some y, none, .zero, .zero, false⟩
  | .zaxis => do
    let z ← BufferedAlphaNoise.mk' bufferSize 1 sz
    .ok ⟨scale, none, none, some z, .zero, .zero, false⟩
  | .none => .error .badAxis

/-- noise.hpp:290-300, `tickVector`. The three component ticks are arguments of one constructor call, so C++
leaves their order open; they act on different objects, so the order does not matter. -/
def tickVector (v : VectorAlphaNoise T) : CVec T × VectorAlphaNoise T :=
  let x := v.cx.tick
  let y := v.cy.tick
  let z := v.cz.tick
  let raw : CVec T := ⟨x.1, y.1, z.1⟩
  let cur := if v.normalized then raw.normalize else raw
  (cur * v.scale,
    { v with prevSample := v.currentSample, currentSample := cur, cx := x.2, cy := y.2, cz := z.2 })

/-- noise.hpp:304, `getPrevSample`. -/
def getPrevSample (v : VectorAlphaNoise T) : CVec T := v.prevSample

/-- noise.hpp:302, scalar `tick`. -/
def tick (v : VectorAlphaNoise T) : T × VectorAlphaNoise T :=
  (v.cx.tick.1 * v.scale, { v with cx := v.cx.tick.2 })

end VectorAlphaNoise

/-- noise.hpp:72-83, `OneFNoise`. -/
structure OneFNoise (T : Type) where
  sources : Nat
  state : List T
  scale : T

namespace OneFNoise
variable {T : Type} [Scalar T]

/-- noise.hpp:86-95: the state starts as `sources` uniform draws from [0,1), the argument `draws`. -/
def mk' (sources : Nat) (scale : T) (draws : Nat → T) : OneFNoise T :=
  ⟨sources, (List.range sources).map draws, scale⟩

/-- Write one trial: noise.hpp:113-115 and 129-131. A trial number at least `sources` is ignored. -/
def refresh (st : List T) (t : Nat) (u : T) : List T := st.set t u

/-- noise.hpp:117, 133: sum of the state in order, starting from 0. -/
def total (st : List T) : T := st.foldl (· + ·) 0

/-- noise.hpp:101-118, `tick`: the geometric trials (the argument, one per source) are sorted and
deduplicated, each valid one gets a fresh uniform draw. -/
def tick (n : OneFNoise T) (trials : List Nat) (draws : Nat → T) : T × OneFNoise T :=
  let uniq := (trials.mergeSort (· ≤ ·)).dedup
  let valid := uniq.filter (· < n.sources)
  let st := (valid.zipIdx).foldl (fun s p => refresh s p.1 (draws p.2)) n.state
  (n.scale * total st, { n with state := st })

/-- noise.hpp:125-134, `tick2`: no sorting, no deduplication. -/
def tick2 (n : OneFNoise T) (trials : List Nat) (draws : Nat → T) : T × OneFNoise T :=
  let valid := trials.filter (· < n.sources)
  let st := (valid.zipIdx).foldl (fun s p => refresh s p.1 (draws p.2)) n.state
  (n.scale * total st, { n with state := st })

end OneFNoise

/-- noise.hpp:31-63, `PinkNoise`: three one-pole filters driven by `rand()`. -/
structure PinkNoise (T : Type) where
  s0 : T
  s1 : T
  s2 : T

namespace PinkNoise
variable {T : Type} [Scalar T]

/-- noise.hpp:33-41. -/
def init : PinkNoise T := ⟨0, 0, 0⟩

/-- noise.hpp:43-56, `tick`; `r0 r1 r2` are three values of `rand()` and `rmax` is `RAND_MAX`, as scalars.
Constants A and P of noise.hpp:60-62. -/
def tick (p : PinkNoise T) (r0 r1 r2 rmax : T) : T × PinkNoise T :=
  let offset : T := 0.02109238 + 0.07113478 + 0.68873558
  let s0 := 0.3190 * (p.s0 - r0) + r0
  let s1 := 0.7756 * (p.s1 - r1) + r1
  let s2 := 0.9613 * (p.s2 - r2) + r2
  ((0.02109238 * s0 + 0.07113478 * s1 + 0.68873558 * s2) * (2.0 / rmax) - offset, ⟨s0, s1, s2⟩)

end PinkNoise
