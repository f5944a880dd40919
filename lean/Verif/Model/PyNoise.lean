import Verif.Scalar

/-!
# Model of `cmtj/models/noise.py`

The random numbers are arguments: a record of what the generator returns. Arrays are lists, an array of shape `(n, dims)` is a list of rows.

Simplifications:
* Sums are taken from left to right (numpy adds pairwise).
* `astype(int)` goes through `Scalar.toInt`, 32 bits instead of 64; outside the model answers `ub`.
* numpy's integer remainder by 0 is 0 (with a warning).
* Progress bar and messages are left out.
-/

namespace PyNoise
variable {T : Type} [Scalar T]

/-- What the generator returns, noise.py:81-132. The functions take the step `i`; `kicks` also the number of rows. -/
structure Draws (T : Type) where
  volumes : List T
  freqs : List Int
  freqsOsc : List T
  phases : List T
  initial : List (List T)
  background : Int → List T
  disturbance : Int → List Int
  kicks : Int → Nat → List (List T)

/-- The arguments of `noise_model` that are used after the random numbers are drawn, noise.py:9-29. -/
structure Args (T : Type) where
  steps : Nat
  backgroundStd : T
  amplitude : T
  oscillations : Bool
  volumeDistribution : String
  freqDistribution : String
  frequencyScale : T
  timeScale : T
  phaseStd : T
  dims : Nat
  offset : Int
  saveVectors : Bool

/-- `np.sum` of a list. -/
def total (l : List T) : T := l.foldl (· + ·) 0

/-- noise.py:82-90, `volumes`, sorted. -/
def volumes (dist : String) (raw : List T) : Except Err (List T) :=
  if dist = "pareto" then .ok (raw.mergeSort Scalar.leb)
  else if dist = "uniform" then .ok ((raw.map (· / total raw)).mergeSort Scalar.leb)
  else .error .unboundLocal

/-- `(scale / volumes).astype(int)`, noise.py:93. -/
def periods (scale : T) : List T → Except Err (List Int)
  | [] => .ok []
  | v :: vs =>
    match Scalar.toInt (scale / v) with
    | none => .error .ub
    | some k =>
      match periods scale vs with
      | .error e => .error e
      | .ok ks => .ok (k :: ks)

/-- noise.py:92-95, `freqs`. -/
def freqs (dist : String) (scale : T) (volumes : List T) (raw : List Int) : Except Err (List Int) :=
  if dist = "functional" then
    match periods scale volumes with
    | .error e => .error e
    | .ok ks => .ok (ks.reverse.map (· + 1))
  else if dist = "uniform" then .ok raw
  else .error .unboundLocal

/-- noise.py:99-101. -/
def phases (a : Args T) (d : Draws T) : List T :=
  if Scalar.ltb 0 a.phaseStd then d.phases.map (· * a.phaseStd) else d.phases.map fun _ => 0

/-- noise.py:109-110 and the sum of 125. -/
def oscillations (a : Args T) (d : Draws T) (i : Int) : T :=
  total (List.zipWith (fun f p => a.amplitude * Scalar.sin (2 * Scalar.pi * f * Scalar.lit (i : ℚ) * a.timeScale + p)) d.freqsOsc (phases a d))

/-- noise.py:115-123 and 125, `osc_fn(i).sum()`. -/
def background (a : Args T) (d : Draws T) : Except Err (Int → T) :=
  if a.oscillations && Scalar.ltb 0 a.backgroundStd then .error .valueError
  else if a.oscillations then .ok (oscillations a d)
  else if Scalar.ltb 0 a.backgroundStd then .ok fun i => total (d.background i)
  else .error .unboundLocal

/-- `i % p == 0` in numpy, noise.py:127. -/
def divides (p i : Int) : Bool := p == 0 || i % p == 0

/-- noise.py:126-127, `freq_mask`. -/
def mask (i : Int) (freqs disturbance : List Int) : List Bool := List.zipWith (fun f e => divides (f + e) i) freqs disturbance

/-- `vector_values[freq_mask] = kicks`, noise.py:132. -/
def assign {α : Type} : List Bool → List α → List α → List α
  | true :: ms, _ :: vs, k :: ks => k :: assign ms vs ks
  | false :: ms, v :: vs, ks => v :: assign ms vs ks
  | _, vs, _ => vs

/-- `f_counts[freq_mask] += 1`, noise.py:129. -/
def count (mask : List Bool) (counts : List Nat) : List Nat := List.zipWith (fun b c => if b then c + 1 else c) mask counts

/-- `np.sum(volumes * vector_values, axis=0)`, noise.py:133. -/
def weighted (dims : Nat) (volumes : List T) (values : List (List T)) : List T :=
  (List.range dims).map fun a => total (List.zipWith (fun v row => v * row.getD a 0) volumes values)

/-- The variables of the loop. -/
structure State (T : Type) where
  values : List (List T)
  m : List (List T)
  counts : List Nat
  saved : List (List (List T))

/-- `m_values[k]` with Python's negative indices. -/
def row (m : List (List T)) (k : Int) : List T := m.getD (if k < 0 then (k + m.length).toNat else k.toNat) []

/-- noise.py:125-138, one step; `r` is `i - offset`. -/
def step (a : Args T) (d : Draws T) (vols : List T) (fs : List Int) (osc : Int → T) (r : Nat) (s : State T) : State T :=
  let i := r + a.offset
  let oscVals := osc i
  let mk := mask i fs (d.disturbance i)
  let fsum := mk.count true
  let counts := count mk s.counts
  let values := if 0 < fsum then assign mk s.values (d.kicks i fsum) else s.values
  let new :=
    if 0 < fsum then List.zipWith (fun old x => old + (x + oscVals)) (row s.m r) (weighted a.dims vols values)
    else (row s.m (r - 1)).map fun old => oscVals + old
  ⟨values, s.m.set r new, counts, if a.saveVectors then s.saved ++ [values] else s.saved⟩

/-- noise.py:124, the loop; `r` steps done, `n` to go. -/
def loop (a : Args T) (d : Draws T) (vols : List T) (fs : List Int) (osc : Int → T) : Nat → Nat → State T → State T
  | _, 0, s => s
  | r, n + 1, s => loop a d vols fs osc (r + 1) n (step a d vols fs osc r s)

/-- What `noise_model` returns. -/
structure Result (T : Type) where
  m : List (List T)
  volumes : List T
  freqs : List Int
  counts : List Nat
  saved : List (List (List T))

/-- noise.py:9-144, `noise_model`. Without steps an unbound `osc_fn` is not noticed. -/
def noiseModel (a : Args T) (d : Draws T) : Except Err (Result T) :=
  match volumes a.volumeDistribution d.volumes with
  | .error e => .error e
  | .ok vols =>
    match freqs a.freqDistribution a.frequencyScale vols d.freqs with
    | .error e => .error e
    | .ok fs =>
      let start : State T := ⟨d.initial, List.replicate a.steps (List.replicate a.dims 0), List.replicate fs.length 0, []⟩
      match background a d with
      | .error .unboundLocal =>
        if a.steps = 0 then .ok ⟨start.m, vols, fs, start.counts, start.saved⟩ else .error .unboundLocal
      | .error e => .error e
      | .ok osc =>
        let s := loop a d vols fs osc 0 a.steps start
        .ok ⟨s.m, vols, fs, s.counts, s.saved⟩

/-- noise.py:147-165, `autocorrelation`; `fft` and `ifft` are numpy's. -/
def autocorrelation {C : Type} (abs : C → T) (ofReal : T → C) (re : C → T) (fft ifft : List C → List C) (x : List T) (dT : T) : List T × List T :=
  let mean := total x / Scalar.lit (x.length : ℚ)
  let xp := x.map (· - mean)
  let f := fft (xp.map ofReal)
  let p := f.map fun z => Scalar.powi (abs z) 2
  let pi := ifft (p.map ofReal)
  let autocorr := ((pi.map re).take (x.length / 2)).map (· / total (xp.map fun v => Scalar.powi v 2))
  ((List.range autocorr.length).map fun k : Nat => Scalar.lit (k : ℚ) * dT, autocorr)

/-- numpy's `fft`. -/
noncomputable def fft (x : List ℂ) : List ℂ :=
  (List.range x.length).map fun k => ∑ j ∈ Finset.range x.length, x.getD j 0 * Complex.exp (-(2 * Real.pi * Complex.I * (j * k : ℕ) / (x.length : ℕ)))

/-- numpy's `ifft`. -/
noncomputable def ifft (x : List ℂ) : List ℂ :=
  (List.range x.length).map fun k =>
    (∑ j ∈ Finset.range x.length, x.getD j 0 * Complex.exp (2 * Real.pi * Complex.I * (j * k : ℕ) / (x.length : ℕ))) / (x.length : ℕ)

end PyNoise
