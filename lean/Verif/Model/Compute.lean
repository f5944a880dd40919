import Verif.Model.Log
import Verif.Model.Exec

/-!
# Model of `core/compute.hpp`

All three functions take the log by reference and read the times as `log["time"]`, which adds an empty column when there is none;
the state of `Out` is the log as the call leaves it.

Simplifications:
* `std::accumulate(…, 0.0)` and `norm` are computed in double; the model computes them in `T`.
* Sizes are natural numbers (`int` does not overflow). `cutSize` is not negative.
* fftw is given: `dft x k` are the real and imaginary part of bin `k` of the transform of `x`. A plan for an empty signal is NULL.
  The memory of `out` is never freed.
-/

namespace Compute
variable {T : Type} [Scalar T]

/-- `log[key]` used as an lvalue: adds an empty column when the key is new. -/
def touch (log : Log T) (key : String) : Log T := if log.has key then log else log ++ [(key, [])]

/-- compute.hpp:50-54 and 106-109: position of the first time that is not before `minTime`, the number of times if there is none. -/
def threshold (times : List T) (minTime : T) : Nat := times.findIdx fun v => Scalar.leb minTime v

/-- `std::max_element`, dereferenced. -/
def maxElement : List T → Option T
  | [] => none
  | x :: xs => some (xs.foldl (fun m v => if Scalar.ltb m v then v else m) x)

/-- `std::min_element`, dereferenced. -/
def minElement : List T → Option T
  | [] => none
  | x :: xs => some (xs.foldl (fun m v => if Scalar.ltb v m then v else m) x)

/-- The map returned by `calculateVoltageSpinDiode`, compute.hpp:78-81. -/
structure Diode (T : Type) where
  Vmix : T
  RMax : T
  RMin : T
  Rpp : T

/-- compute.hpp:57-82, from the kept resistances `rs` and times `ts` (`cutSize` of them); all resistances are at least as many. -/
def diode (rs ts : List T) (frequency power : T) : Except Err (Diode T) :=
  let omega := 2 * Scalar.pi * frequency
  match maxElement rs, minElement rs with
  | some RppMax, some RppMin =>
    let avgR := rs.foldl (· + ·) 0 / Scalar.lit (ts.length : ℚ)
    let Iampl := Scalar.sqrt (power / avgR)
    let current := ts.map fun time => Iampl * Scalar.sin (omega * time)
    if rs.length < ts.length then .error .ub
    else
      let voltage := List.zipWith (· * ·) rs current
      let Vmix := voltage.foldl (· + ·) 0 / Scalar.lit (voltage.length : ℚ)
      .ok ⟨Vmix, RppMax, RppMin, RppMax - RppMin⟩
  | _, _ => .error .ub

/-- compute.hpp:34-83, `calculateVoltageSpinDiode`. -/
def calculateVoltageSpinDiode (log : Log T) (resTag : String) (frequency power minTime : T) : Out (Log T) (Diode T) :=
  if log.isEmpty then .fail .emptyLog log
  else if !log.has resTag then .fail .badTag log
  else
    let log := touch log "time"
    let thresIdx := threshold (log.col "time") minTime
    if (log.col resTag).length < thresIdx then .fail .ub log
    else ⟨diode ((log.col resTag).drop thresIdx) ((log.col "time").drop thresIdx) frequency power, log⟩

/-- compute.hpp:113 and 170. -/
def maxIt (cutSize : Nat) : Nat := if cutSize % 2 ≠ 0 then cutSize / 2 else (cutSize - 1) / 2

/-- compute.hpp:112-117 and 169-175, the frequencies. -/
def frequencySteps (cutSize : Nat) (timeStep : T) : List T :=
  (List.range (maxIt cutSize)).map fun k : Nat => Scalar.lit (k : ℚ) / (timeStep * Scalar.lit (cutSize : ℚ))

/-- compute.hpp:142 and 205. -/
def norm (cutSize : Nat) : T := Scalar.lit (cutSize : ℚ) / 2

/-- compute.hpp:146-149 and 207-210, the amplitude of a bin. -/
def amplitude (norm : T) (z : T × T) : T := Scalar.sqrt (Scalar.powi (z.1 / norm) 2 + Scalar.powi (z.2 / norm) 2)

/-- compute.hpp:146-150, the phase of a bin. -/
def phase (norm : T) (z : T × T) : T := Scalar.atan2 (z.2 / norm) (z.1 / norm)

/-- `result[key] = v` on an unordered map. -/
def assign (log : Log T) (key : String) (v : List T) : Log T :=
  match log with
  | [] => [(key, v)]
  | (k, w) :: r => if k = key then (k, v) :: r else (k, w) :: assign r key v

/-- compute.hpp:122-155, the loop over the tags; the log is not changed by it. -/
def tagLoop (dft : List T → Nat → T × T) (log : Log T) (thresIdx cutSize : Nat) : List String → Log T → Except Err (Log T)
  | [], res => .ok res
  | tag :: tags, res =>
    if !log.has tag then .error .badTag
    else if (log.col tag).length < thresIdx then .error .ub
    else
      let cutMag := (log.col tag).drop thresIdx
      if cutMag = [] then .error .noPlan
      else
        let outBins := (cutMag.length + 1) / 2
        let bins := List.range' 1 (outBins - 2)
        let res := assign res (tag ++ "_amplitude") ((dft cutMag 0).1 :: bins.map fun i => amplitude (norm cutSize) (dft cutMag i))
        let res := assign res (tag ++ "_phase") (0 :: bins.map fun i => phase (norm cutSize) (dft cutMag i))
        tagLoop dft log thresIdx cutSize tags res

/-- compute.hpp:92-157, `spectralFFT`. -/
def spectralFFT (dft : List T → Nat → T × T) (log : Log T) (fftIds : List String) (minTime timeStep : T) : Out (Log T) (Log T) :=
  let log := touch log "time"
  match (log.col "time").getLast? with
  | none => .fail .ub log
  | some last =>
    if Scalar.leb last minTime then .fail .lateMinTime log
    else if log.isEmpty then .fail .emptyLog log
    else
      let thresIdx := threshold (log.col "time") minTime
      let cutSize := (log.col "time").length - thresIdx
      ⟨tagLoop dft log thresIdx cutSize fftIds [("frequencies", frequencySteps cutSize timeStep)], log⟩

/-- compute.hpp:180-189, the sum of the columns, one entry per time. -/
def mixLoop (log : Log T) : List String → List T → Except Err (List T)
  | [], mixedSignal => .ok mixedSignal
  | tag :: tags, mixedSignal =>
    if !log.has tag then .error .badTag
    else if (log.col tag).length < mixedSignal.length then .error .ub
    else mixLoop log tags (List.zipWith (· + ·) mixedSignal (log.col tag))

/-- compute.hpp:159-216, `spectralFFTMixed`. -/
def spectralFFTMixed (dft : List T → Nat → T × T) (log : Log T) (tagsToMix : List String) (timeStep : T) : Out (Log T) (Log T) :=
  let log := touch log "time"
  let cutSize := (log.col "time").length
  if log.isEmpty then .fail .emptyLog log
  else if maxIt cutSize = 0 then .fail .ub log
  else
    match mixLoop log tagsToMix (List.replicate cutSize 0) with
    | .error e => .fail e log
    | .ok mixedSignal =>
      if mixedSignal = [] then .fail .noPlan log
      else
        let outBins := (mixedSignal.length + 1) / 2
        let amplitudes := (dft mixedSignal 0).1 :: (List.range' 1 (outBins - 1)).map fun i => amplitude (norm cutSize) (dft mixedSignal i)
        .ok [("frequencies", frequencySteps cutSize timeStep), ("mixed_amplitude", amplitudes)] log

/-- What fftw computes: bin `k` of the transform is `Σ_j x_j e^{-2πi jk/n}`. -/
noncomputable def dftReal (x : List ℝ) (k : Nat) : ℝ × ℝ :=
  (∑ i ∈ Finset.range x.length, x.getD i 0 * Real.cos (2 * Real.pi * (i * k : ℕ) / (x.length : ℕ)),
    -∑ i ∈ Finset.range x.length, x.getD i 0 * Real.sin (2 * Real.pi * (i * k : ℕ) / (x.length : ℕ)))

end Compute
