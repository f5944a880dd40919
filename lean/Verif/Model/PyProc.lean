import Verif.Model.Junction
import Mathlib.Analysis.SpecialFunctions.Complex.Log

/-!
# Model of `cmtj/utils/procedures.py` and of the filter behind `compute_sd`

Simplifications:
* An array of shape `[layers, 3, T]` is a list (layers) of lists (time) of vectors. Columns of unequal length (which distinct layer
  ids exclude) make `np.asarray` raise `ValueError`.
* The normal draws are given: `noise n i` is the vector drawn for the `i`-th layer id in the `n`-th measurement.
* `resistance_fn` is an arbitrary function of the parameters and the magnetisations. The coefficients of scipy's `butter` are given.
* The entries of PIMM's output dictionary are kept in one record per field; a layer id equal to "H", "Rx", "Ry", "m_avg" or "m_traj"
  or occurring twice would share a list. `np.squeeze` and the trailing axis of length 1 in the spectra are left out.
* The progress bars are left out.
-/

namespace Proc
variable {T : Type} [Scalar T]

/-- procedures.py:15-25, `ResistanceParameters`. -/
structure ResParams (T : Type) where
  Rxx0 : T
  Rxy0 : T
  Rahe : T
  Rsmr : T
  Ramr : T
  w : T
  l : T

/-- A resistance function: the five lists, the magnetisations, lengths and widths. -/
abbrev ResFn (T : Type) :=
  List T → List T → List T → List T → List T → List (List (CVec T)) → List T → List T → Except Err (List T × List T)

/-- `log[key]` on the dictionary returned by `getLog`. -/
def lookup (log : Log T) (key : String) : Except Err (List T) :=
  if log.has key then .ok (log.col key) else .error .keyError

/-- The three columns of one layer as a list of vectors over time, procedures.py:146-152 and 284-288. -/
def layerColumns (log : Log T) (id : String) : Except Err (List (CVec T)) :=
  match lookup log (id ++ "_mx") with
  | .error e => .error e
  | .ok xs =>
    match lookup log (id ++ "_my") with
    | .error e => .error e
    | .ok ys =>
      match lookup log (id ++ "_mz") with
      | .error e => .error e
      | .ok zs =>
        if xs.length = ys.length ∧ ys.length = zs.length then
          .ok (List.zipWith (fun x (p : T × T) => ⟨x, p.1, p.2⟩) xs (ys.zip zs))
        else .error .valueError

/-- `np.asarray` of rows: they must have the same length. -/
def asArray {α : Type} (rows : List (List α)) : Except Err (List (List α)) :=
  match rows with
  | [] => .ok []
  | r :: rs => if rs.all (fun q => q.length == r.length) then .ok (r :: rs) else .error .valueError

/-- `[f(x) for x in xs]` where `f` may raise. -/
def collect {α β : Type} (f : α → Except Err β) : List α → Except Err (List β)
  | [] => .ok []
  | a :: as =>
    match f a with
    | .error e => .error e
    | .ok b =>
      match collect f as with
      | .error e => .error e
      | .ok bs => .ok (b :: bs)

/-! ### The excitation -/

/-- procedures.py:91-111 and 241-258: the driver `d` on the chosen axis; x unless y or z is asked for. -/
def onAxis (axis : Axis) (d : ScalarDriver T) : AxialDriver T :=
  match axis with
  | .zaxis => ⟨.null, .null, d⟩
  | .yaxis => ⟨.null, d, .null⟩
  | _ => ⟨d, .null, .null⟩

/-- procedures.py:92, 99 and 106, the letter of the component whose spectrum is taken. -/
def letter (axis : Axis) : String :=
  match axis with
  | .zaxis => "z"
  | .yaxis => "y"
  | _ => "x"

/-- procedures.py:132-140 and 271-279, the loop over the layer ids from index `i`. -/
def disturb (noise : Nat → CVec T) : Nat → List String → Junction T → Out (Junction T) Unit
  | _, [], j => .ok () j
  | i, id :: ids, j =>
    match j.getLayerMagnetisation id with
    | .error e => .fail e j
    | .ok old => (j.setLayerMagnetisation id (old + noise i).normalize).bind fun _ j => disturb noise (i + 1) ids j

/-- procedures.py:121-141 and 260-280: clear the log, set the drivers, disturb, run. `layer_ids` is read before (114 and 234). -/
def measure (j : Junction T) (ids : List String) (H : CVec T) (oe : AxialDriver T) (disturbance : T) (noise : Nat → CVec T)
    (duration dt : T) : Out (Junction T) Unit :=
  (j.clearLog.setLayerExternalFieldDriver "all" ⟨.constantDriver H.x, .constantDriver H.y, .constantDriver H.z⟩).bind fun _ j =>
  (j.setLayerOerstedFieldDriver "all" oe).bind fun _ j =>
  (if Scalar.eqb disturbance 0 then .ok () j else disturb noise 0 ids j).bind fun _ j =>
  j.runSimulation duration dt dt false .RK4

/-! ### Spectra -/

/-- procedures.py:28-39, `compute_spectrum_strip`, `absfft` for `np.abs(fft(·))` (which refuses an empty array). `fftfreq(n, d)`
starts with `k / (n d)` for `k < n // 2`. -/
def spectrumStrip (absfft : List T → List T) (input : List T) (dt maxFrequency : T) : Except Err (List T × List T) :=
  if input = [] then .error .valueError
  else
    let n := input.length
    let freqs : List T := (List.range (n / 2)).map fun k : Nat => Scalar.lit (k : ℚ) * (1.0 / (Scalar.lit (n : ℚ) * dt))
    let yf := (absfft input).take (n / 2)
    let findx := (List.range (n / 2)).filter fun k => Scalar.leb (freqs.getD k 0) maxFrequency
    .ok (findx.map (yf.getD · 0), findx.map (freqs.getD · 0))

/-! ### PIMM, procedures.py:42-199 -/

/-- `a[..., -n:]`. -/
def lastN {α : Type} (n : Int) (l : List α) : List α :=
  if 0 < n then l.drop (l.length - n.toNat) else l.drop (-n).toNat

/-- `np.asarray(col)[indx]`. -/
def pick (col : List T) (indx : List Nat) : Except Err (List T) :=
  collect (fun i => match col[i]? with
    | some x => .ok x
    | none => .error .indexError) indx

/-- What PIMM stores for one field; `spectrum`, `traj` and `layers` are empty when they are not computed. -/
structure PimmRow (T : Type) where
  H : CVec T
  Rx : List T
  Ry : List T
  mAvg : CVec T
  spectrum : List T
  traj : List (List (CVec T))
  layers : List (List T)

/-- The arguments of PIMM that do not change from field to field. -/
structure PimmArgs (T : Type) where
  dt : T
  params : List (ResParams T)
  axis : Axis
  excitation : T
  pulse : T
  duration : T
  wait : T
  maxFrequency : T
  resFn : ResFn T
  disturbance : T
  takeLast : Int
  full : Bool
  static : Bool

/-- procedures.py:118, the normalising factor. -/
def weightSum (j : Junction T) : T := (j.layers.map fun l => l.thickness * l.Ms).foldl (· + ·) 0

/-- procedures.py:153-155, the factors applied to every entry of a layer. -/
def weigh (norm : T) (l : Layer T) (x : T) : T := x * l.thickness * l.Ms / norm

/-- procedures.py:144-158, `m_traj`. -/
def trajectories (norm : T) (j : Junction T) : Except Err (List (List (CVec T))) :=
  match collect (fun l => match layerColumns j.log l.id with
      | .ok vs => .ok (vs.map fun v => (⟨weigh norm l v.x, weigh norm l v.y, weigh norm l v.z⟩ : CVec T))
      | .error e => .error e) j.layers with
  | .ok rows => asArray rows
  | .error e => .error e

/-- procedures.py:143, the positions of the rows not before the waiting time. -/
def kept (times : List T) (wait : T) : List Nat := (List.range times.length).filter fun i => Scalar.leb wait (times.getD i 0)

/-- procedures.py:171-179, `mixed`. -/
def mixed (norm : T) (j : Junction T) (axis : Axis) (indx : List Nat) : Except Err (List (List T)) :=
  match collect (fun l => match lookup j.log (l.id ++ "_m" ++ letter axis) with
      | .ok col => match pick col indx with
        | .ok vs => .ok (vs.map (weigh norm l))
        | .error e => .error e
      | .error e => .error e) j.layers with
  | .ok rows => asArray rows
  | .error e => .error e

/-- `a.sum(axis=0)` for rows of equal length. -/
def sumCols : List (List T) → List T
  | [] => []
  | r :: rs => rs.foldl (List.zipWith (· + ·)) r

/-- The last entry along the time axis; an empty axis raises `IndexError`. -/
def lastOf (vs : List (CVec T)) : Except Err (CVec T) :=
  match vs.getLast? with
  | some v => .ok v
  | none => .error .indexError

/-- `m_traj[:, :, -1].sum(0)`, procedures.py:189. -/
def lastSum (traj : List (List (CVec T))) : Except Err (CVec T) :=
  match collect lastOf traj with
  | .ok vs => .ok (vs.foldl (· + ·) ⟨0, 0, 0⟩)
  | .error e => .error e

/-- procedures.py:170-183 and 190-194: the spectrum of the sum, the frequencies, and the spectra of the layers if asked for. -/
def spectra (absfft : List T → List T) (a : PimmArgs T) (norm : T) (j : Junction T) (indx : List Nat) :
    Except Err (List T × List T × List (List T)) :=
  match mixed norm j a.axis indx with
  | .error e => .error e
  | .ok mx =>
    match spectrumStrip absfft (sumCols mx) a.dt a.maxFrequency with
    | .error e => .error e
    | .ok (yf, freqs) =>
      if a.full then
        match collect (fun row => match spectrumStrip absfft row a.dt a.maxFrequency with
            | .ok (y, _) => .ok y
            | .error e => .error e) mx with
        | .ok ys => .ok (yf, freqs, ys)
        | .error e => .error e
      else .ok (yf, freqs, [])

/-- procedures.py:160-169 and 307-316, the call of the resistance function. -/
def resistances (fn : ResFn T) (ps : List (ResParams T)) (m : List (List (CVec T))) : Except Err (List T × List T) :=
  fn (ps.map (·.Rxx0)) (ps.map (·.Rxy0)) (ps.map (·.Ramr)) (ps.map (·.Rahe)) (ps.map (·.Rsmr)) m (ps.map (·.l)) (ps.map (·.w))

/-- procedures.py:142-194, what is read from the junction after the run. -/
def readOut (absfft : List T → List T) (a : PimmArgs T) (norm : T) (j : Junction T) (H : CVec T) :
    Except Err (PimmRow T × Option (List T)) :=
  match lookup j.log "time" with
  | .error e => .error e
  | .ok times =>
    match trajectories norm j with
    | .error e => .error e
    | .ok traj =>
      match resistances a.resFn a.params (traj.map (lastN a.takeLast)) with
      | .error e => .error e
      | .ok (Rx, Ry) =>
        if a.static then
          match lastSum traj with
          | .error e => .error e
          | .ok avg => .ok (⟨H, Rx, Ry, avg, [], [], []⟩, none)
        else
          match spectra absfft a norm j (kept times a.wait) with
          | .error e => .error e
          | .ok (yf, freqs, ys) =>
            match lastSum traj with
            | .error e => .error e
            | .ok avg => .ok (⟨H, Rx, Ry, avg, yf, if a.full then traj else [], ys⟩, some freqs)

/-- procedures.py:120-194, the loop over the fields, from measurement `n`; `freqs` is the variable of that name. -/
def pimmLoop (absfft : List T → List T) (a : PimmArgs T) (ids : List String) (norm : T) (oe : AxialDriver T)
    (noise : Nat → Nat → CVec T) : Nat → List (CVec T) → Option (List T) → Junction T → Out (Junction T) (List (PimmRow T) × Option (List T))
  | _, [], freqs, j => .ok ([], freqs) j
  | n, H :: Hs, freqs, j =>
    (measure j ids H oe a.disturbance (noise n) a.duration a.dt).bind fun _ j =>
    match readOut absfft a norm j H with
    | .error e => .fail e j
    | .ok (row, f) =>
      (pimmLoop absfft a ids norm oe noise (n + 1) Hs (if a.static then freqs else f) j).bind fun r j =>
        .ok (row :: r.1, r.2) j

/-- procedures.py:42-199, `PIMM_procedure`: one record per field and the frequencies. -/
def pimm (absfft : List T → List T) (a : PimmArgs T) (noise : Nat → Nat → CVec T) (Hvecs : List (CVec T)) (j : Junction T) :
    Out (Junction T) (List (PimmRow T) × Option (List T)) :=
  if Scalar.ltb a.duration a.wait then .fail .valueError j
  else
    match ScalarDriver.stepDriver 0 a.excitation 0 (a.dt * a.pulse) with
    | .error e => .fail e j
    | .ok d =>
      let ids := j.layers.map (·.id)
      if ids.length ≠ a.params.length then .fail .valueError j
      else pimmLoop absfft a ids (weightSum j) (onAxis a.axis d) noise 0 Hvecs none j

/-! ### Spin diode, procedures.py:202-331 -/

/-- scipy's `lfilter(b, a, x)`: `a₀ y[n] = Σ b_k x[n-k] - Σ_{k ≥ 1} a_k y[n-k]`, used in filters.py:43. The arguments after the coefficients
are the past inputs and outputs, latest first. -/
def lfilterFrom (b a : List T) : List T → List T → List T → List T
  | _, _, [] => []
  | xs, ys, x :: rest =>
    let hist := x :: xs
    let y := ((List.zipWith (· * ·) b hist).foldl (· + ·) 0 - (List.zipWith (· * ·) (a.drop 1) ys).foldl (· + ·) 0) / a.getD 0 1
    y :: lfilterFrom b a hist (y :: ys) rest

/-- scipy's `lfilter` with zero initial state. -/
def lfilter (b a : List T) (x : List T) : List T := lfilterFrom b a [] [] x

/-- resistance.py:11-22, `compute_sd`, `butter` giving the coefficients for the normalised cutoff (filters.py:40-42). -/
def computeSd (butter : T → Except Err (List T × List T)) (r i : List T) (dt : T) : Except Err T :=
  if r.length ≠ i.length then .error .valueError
  else
    let sd := List.zipWith (fun i r => -i * r) i r
    let fs : T := 1.0 / dt
    match butter (10e6 / (0.5 * fs)) with
    | .error e => .error e
    | .ok (b, a) =>
      let y := lfilter b a sd
      .ok (y.foldl (· + ·) 0 / Scalar.lit (y.length : ℚ))

/-- The arguments of the spin-diode procedure that do not change. -/
structure VsdArgs (T : Type) where
  dt : T
  params : List (ResParams T)
  axis : Axis
  excitation : T
  duration : T
  disturbance : T
  rtype : String
  resFn : ResFn T
  butter : T → Except Err (List T × List T)

/-- procedures.py:292-322, the resistance over time. -/
def vsdResistance (a : VsdArgs T) (ids : List String) (j : Junction T) (m : List (List (CVec T))) : Except Err (List T) :=
  if a.rtype = "Rz" then
    match ids with
    | [] => .error .valueError
    | [_] => lookup j.log "Resistance"
    | [i0, i1] => lookup j.log ("R_" ++ i0 ++ "_" ++ i1)
    | _ => .error .valueError
  else
    match resistances a.resFn a.params m with
    | .error e => .error e
    | .ok (rx, ry) => if a.rtype = "Rx" then .ok rx else if a.rtype = "Ry" then .ok ry else .error .valueError

/-- procedures.py:281-325, what is computed from the junction after the run. -/
def vsdRead (a : VsdArgs T) (ids : List String) (j : Junction T) (frequency : T) : Except Err T :=
  match collect (layerColumns j.log) ids with
  | .error e => .error e
  | .ok rows =>
    match asArray rows with
    | .error e => .error e
    | .ok m =>
      match vsdResistance a ids j m with
      | .error e => .error e
      | .ok r =>
        match lookup j.log "time" with
        | .error e => .error e
        | .ok times => computeSd a.butter r (times.map fun t => Scalar.sin (2 * Scalar.pi * frequency * t)) a.dt

/-- procedures.py:240-325, `simulate_VSD`. -/
def simulateVsd (a : VsdArgs T) (ids : List String) (noise : Nat → CVec T) (H : CVec T) (frequency : T) (j : Junction T) :
    Out (Junction T) T :=
  match ScalarDriver.sineDriver 0 a.excitation frequency 0 with
  | .error e => .fail e j
  | .ok d =>
    (measure j ids H (onAxis a.axis d) a.disturbance noise a.duration a.dt).bind fun _ j =>
    match vsdRead a ids j frequency with
    | .error e => .fail e j
    | .ok v => .ok v j

/-- procedures.py:329-330, the inner loop, from measurement `n`. -/
def vsdRow (a : VsdArgs T) (ids : List String) (noise : Nat → Nat → CVec T) (H : CVec T) : Nat → List T → Junction T →
    Out (Junction T) (List T)
  | _, [], j => .ok [] j
  | n, f :: fs, j =>
    (simulateVsd a ids (noise n) H f j).bind fun v j =>
    (vsdRow a ids noise H (n + 1) fs j).bind fun vs j => .ok (v :: vs) j

/-- procedures.py:328-330, the loops over fields and frequencies. -/
def vsdLoop (a : VsdArgs T) (ids : List String) (noise : Nat → Nat → CVec T) (freqs : List T) : Nat → List (CVec T) → Junction T →
    Out (Junction T) (List (List T))
  | _, [], j => .ok [] j
  | n, H :: Hs, j =>
    (vsdRow a ids noise H n freqs j).bind fun row j =>
    (vsdLoop a ids noise freqs (n + freqs.length) Hs j).bind fun rows j => .ok (row :: rows) j

/-- procedures.py:202-331, `VSD_procedure`. -/
def vsd (a : VsdArgs T) (noise : Nat → Nat → CVec T) (Hvecs : List (CVec T)) (freqs : List T) (j : Junction T) :
    Out (Junction T) (List (List T)) :=
  let ids := j.layers.map (·.id)
  if a.rtype = "Rz" ∧ 2 < ids.length then .fail .valueError j
  else if a.params.length ≠ ids.length then .fail .valueError j
  else vsdLoop a ids noise freqs 0 Hvecs j

/-! ### The transform -/

/-- `np.abs(fft(x))`: entry `k` is `|Σ_j x_j e^{-2πi jk/n}|`. -/
noncomputable def absDft (x : List ℝ) : List ℝ :=
  (List.range x.length).map fun k =>
    ‖∑ i ∈ Finset.range x.length, (x.getD i 0 : ℂ) * Complex.exp (-(2 * Real.pi * Complex.I * (i * k : ℕ) / (x.length : ℕ)))‖

end Proc
