import Verif.Lemmas.Scheme
import Verif.Lemmas.Record

/-!
C116. A layer made by one of the constructors and then configured obeys the Landau-Lifshitz-Gilbert equation with the
arguments of the constructor and with what was set last; everything never set is zero.
-/

set_option linter.unusedSectionVars false
set_option linter.unusedSimpArgs false

namespace Spec
open Layer

/-- One configuration call on a layer. -/
inductive Setting where
  | external (d : AxialDriver ℝ) | oersted (d : AxialDriver ℝ) | hdmi (d : AxialDriver ℝ) | reserved (d : AxialDriver ℝ)
  | anisotropy (d : ScalarDriver ℝ) | current (d : ScalarDriver ℝ)
  | iecBottom (d : ScalarDriver ℝ) | iecTop (d : ScalarDriver ℝ) | quadBottom (d : ScalarDriver ℝ) | quadTop (d : ScalarDriver ℝ)
  | idmiBottom (d : AxialDriver ℝ) | idmiTop (d : AxialDriver ℝ)
  | dipoleBottom (t : Tensor ℝ) | dipoleTop (t : Tensor ℝ)
  | reference (v : CVec ℝ) | kappa (k : ℝ) | alternative (b : Bool)

/-- The call on the layer. -/
noncomputable def Setting.call (l : Layer ℝ) : Setting → Layer ℝ
  | external d => l.setExternalFieldDriver d
  | oersted d => l.setOerstedFieldDriver d
  | hdmi d => l.setHdmiDriver d
  | reserved d => l.setReservedInteractionField d
  | anisotropy d => l.setAnisotropyDriver d
  | current d => l.setCurrentDriver d
  | iecBottom d => l.setIECDriverBottom d
  | iecTop d => l.setIECDriverTop d
  | quadBottom d => l.setQuadIECDriverBottom d
  | quadTop d => l.setQuadIECDriverTop d
  | idmiBottom d => l.setIDMIDriverBottom d
  | idmiTop d => l.setIDMIDriverTop d
  | dipoleBottom t => l.setBottomDipoleTensor t
  | dipoleTop t => l.setTopDipoleTensor t
  | reference v => l.setReferenceLayer v
  | kappa k => l.setKappa k
  | alternative b => l.setAlternativeSTT b

/-- What the last call of one kind has set, if there was one. -/
def lastSet {α : Type} (f : Setting → Option α) (calls : List Setting) : Option α := (calls.filterMap f).getLast?

/-- The vector a driver that may have been set has at time `t`. -/
noncomputable def vecAt (d : Option (AxialDriver ℝ)) (t : ℝ) : CVec ℝ := (d.map (·.value t)).getD ⟨0, 0, 0⟩

/-- The number a driver that may have been set has at time `t`. -/
noncomputable def numAt (d : Option (ScalarDriver ℝ)) (t : ℝ) : ℝ := (d.map (·.value t)).getD 0

/-- The stray field of a neighbour. -/
noncomputable def strayAt (N : Option (Tensor ℝ)) (Ms : ℝ) (m : CVec ℝ) : CVec ℝ := (N.map (tensorField · Ms m)).getD ⟨0, 0, 0⟩

/-- The effective field with the settings `calls`. -/
noncomputable def fieldOf (calls : List Setting) (anis : CVec ℝ) (Ms d : ℝ) (N : Tensor ℝ) (t : ℝ) (m below above : CVec ℝ) : CVec ℝ :=
  vecAt (lastSet (fun | .external d => some d | _ => none) calls) t +
  vecAt (lastSet (fun | .oersted d => some d | _ => none) calls) t +
  vecAt (lastSet (fun | .hdmi d => some d | _ => none) calls) t +
  vecAt (lastSet (fun | .reserved d => some d | _ => none) calls) t +
  anisField anis Ms (numAt (lastSet (fun | .anisotropy d => some d | _ => none) calls) t) m +
  exchangeField Ms d (numAt (lastSet (fun | .iecBottom d => some d | _ => none) calls) t)
    (numAt (lastSet (fun | .quadBottom d => some d | _ => none) calls) t) m below +
  exchangeField Ms d (numAt (lastSet (fun | .iecTop d => some d | _ => none) calls) t)
    (numAt (lastSet (fun | .quadTop d => some d | _ => none) calls) t) m above +
  idmiField Ms d (vecAt (lastSet (fun | .idmiBottom d => some d | _ => none) calls) t) below +
  idmiField Ms d (vecAt (lastSet (fun | .idmiTop d => some d | _ => none) calls) t) above -
  tensorField N Ms m -
  strayAt (lastSet (fun | .dipoleBottom t => some t | _ => none) calls) Ms below -
  strayAt (lastSet (fun | .dipoleTop t => some t | _ => none) calls) Ms above

/-- Landau-Lifshitz-Gilbert in the field `H` with the torque `τ`. -/
noncomputable def gilbert (α : ℝ) (m H τ : CVec ℝ) : CVec ℝ :=
  smul (220880 / (1 + α ^ 2)) (τ - m.cross H - smul α (m.cross (m.cross H)))

/-- The current and the polarisation set last. -/
noncomputable def currentAt (calls : List Setting) (t : ℝ) : ℝ :=
  numAt (lastSet (fun | .current d => some d | _ => none) calls) t
noncomputable def polarisation (calls : List Setting) : CVec ℝ :=
  (lastSet (fun | .reference v => some v | _ => none) calls).getD ⟨0, 0, 0⟩

/-- Spin-orbit torque of a current with the field-like and damping-like coefficients `hf`, `hd`. -/
noncomputable def sotTorque (calls : List Setting) (α hf hd t : ℝ) (m : CVec ℝ) : CVec ℝ :=
  let I := currentAt calls t
  let p := polarisation calls
  smul (-(hf * I - α * (hd * I))) (m.cross p) - smul (hd * I + α * (hf * I)) (m.cross (m.cross p))

/-- Spin-transfer torque with the Slonczewski parameter `Λ`, the ratio `β` and the polarisation `P`. -/
noncomputable def sttTorque (calls : List Setting) (Ms d Λ β P t : ℝ) (m : CVec ℝ) : CVec ℝ :=
  let p := polarisation calls
  let A := 6.62607015e-34 / (2 * Real.pi) * currentAt calls t / (1.60217662e-19 * Ms * d)
  let η := if lastSet (fun | .alternative b => some b | _ => none) calls = some true then P / (1 + Λ * m.dot p)
    else P * Λ ^ 2 / (Λ ^ 2 + 1 + (Λ ^ 2 - 1) * m.dot p)
  smul (A * η * β) (m.cross p) - smul (A * η * (lastSet (fun | .kappa k => some k | _ => none) calls).getD 1) (m.cross (m.cross p))

end Spec

namespace Layer
open Spec

/-- the members the equation of motion reads, in terms of the calls -/
structure Set_ (calls : List Setting) (l0 l : Layer ℝ) : Prop where
  anis : l.anis = l0.anis
  Ms : l.Ms = l0.Ms
  thickness : l.thickness = l0.thickness
  demag : l.demagTensor = l0.demagTensor
  damping : l.damping = l0.damping
  stt : l.includeSTT = l0.includeSTT
  sot : l.includeSOT = l0.includeSOT
  dyn : l.dynamicSOT = l0.dynamicSOT
  fl : l.fieldLikeTorque = l0.fieldLikeTorque
  dl : l.dampingLikeTorque = l0.dampingLikeTorque
  slon : l.slonczewski = l0.slonczewski
  beta : l.beta = l0.beta
  pol : l.spinPolarisation = l0.spinPolarisation
  ext : l.externalFieldDriver = (lastSet (fun | .external d => some d | _ => none) calls).getD l0.externalFieldDriver
  oe : l.HoeDriver = (lastSet (fun | .oersted d => some d | _ => none) calls).getD l0.HoeDriver
  hdmi : l.HdmiDriver = (lastSet (fun | .hdmi d => some d | _ => none) calls).getD l0.HdmiDriver
  res : l.HreservedDriver = (lastSet (fun | .reserved d => some d | _ => none) calls).getD l0.HreservedDriver
  K : l.anisotropyDriver = (lastSet (fun | .anisotropy d => some d | _ => none) calls).getD l0.anisotropyDriver
  cur : l.currentDriver = (lastSet (fun | .current d => some d | _ => none) calls).getD l0.currentDriver
  ib : l.IECDriverBottom = (lastSet (fun | .iecBottom d => some d | _ => none) calls).getD l0.IECDriverBottom
  it : l.IECDriverTop = (lastSet (fun | .iecTop d => some d | _ => none) calls).getD l0.IECDriverTop
  qb : l.IECQuadDriverBottom = (lastSet (fun | .quadBottom d => some d | _ => none) calls).getD l0.IECQuadDriverBottom
  qt : l.IECQuadDriverTop = (lastSet (fun | .quadTop d => some d | _ => none) calls).getD l0.IECQuadDriverTop
  db : l.IDMIDriverBottom = (lastSet (fun | .idmiBottom d => some d | _ => none) calls).getD l0.IDMIDriverBottom
  dt : l.IDMIDriverTop = (lastSet (fun | .idmiTop d => some d | _ => none) calls).getD l0.IDMIDriverTop
  pb : l.dipoleBottom = (lastSet (fun | .dipoleBottom t => some t | _ => none) calls).getD l0.dipoleBottom
  pt : l.dipoleTop = (lastSet (fun | .dipoleTop t => some t | _ => none) calls).getD l0.dipoleTop
  refl : l.referenceLayer = (lastSet (fun | .reference v => some v | _ => none) calls).getD l0.referenceLayer
  reft : l.referenceType = if (lastSet (fun | .reference v => some v | _ => none) calls).isSome then .FIXED else l0.referenceType
  kap : l.kappa = (lastSet (fun | .kappa k => some k | _ => none) calls).getD l0.kappa
  alt : l.alternativeSTTSet = (lastSet (fun | .alternative b => some b | _ => none) calls).getD l0.alternativeSTTSet

theorem lastSet_append {α : Type} (f : Setting → Option α) (calls : List Setting) (c : Setting) :
    lastSet f (calls ++ [c]) = (f c).or (lastSet f calls) := by
  unfold lastSet
  rw [List.filterMap_append]
  cases h : f c <;> simp [h]

theorem calls_set (l0 : Layer ℝ) (calls : List Setting) : Set_ calls l0 (calls.foldl Setting.call l0) := by
  induction calls using List.reverseRecOn with
  | nil => constructor <;> simp [lastSet]
  | append_singleton cs c ih =>
    rw [List.foldl_append]
    obtain ⟨⟩ := ih
    cases c <;> constructor <;>
      simp only [lastSet_append, List.foldl_cons, List.foldl_nil, Option.none_or, Option.some_or, Option.getD_some,
        Option.isSome_some, if_true, Setting.call, setExternalFieldDriver, setOerstedFieldDriver, setHdmiDriver,
        setReservedInteractionField, setAnisotropyDriver, setCurrentDriver, setIECDriverBottom, setIECDriverTop,
        setQuadIECDriverBottom, setQuadIECDriverTop, setIDMIDriverBottom, setIDMIDriverTop, setBottomDipoleTensor,
        setTopDipoleTensor, setReferenceLayer, setKappa, setAlternativeSTT] <;> assumption

/-- a layer before any call: nothing is set -/
structure Fresh (anis : CVec ℝ) (Ms d : ℝ) (N : Tensor ℝ) (α : ℝ) (l : Layer ℝ) : Prop where
  anis : l.anis = anis
  Ms : l.Ms = Ms
  thickness : l.thickness = d
  demag : l.demagTensor = N
  damping : l.damping = α
  ext : l.externalFieldDriver = .null
  oe : l.HoeDriver = .null
  hdmi : l.HdmiDriver = .null
  res : l.HreservedDriver = .null
  K : l.anisotropyDriver = .null
  cur : l.currentDriver = .null
  ib : l.IECDriverBottom = .null
  it : l.IECDriverTop = .null
  qb : l.IECQuadDriverBottom = .null
  qt : l.IECQuadDriverTop = .null
  db : l.IDMIDriverBottom = .null
  dt : l.IDMIDriverTop = .null
  pb : l.dipoleBottom = .zero
  pt : l.dipoleTop = .zero
  refl : l.referenceLayer = .zero
  reft : l.referenceType = .NONE
  kap : l.kappa = 1
  alt : l.alternativeSTTSet = false

theorem mk'_members {id : String} {mag anis : CVec ℝ} {Ms d S : ℝ} {N : Tensor ℝ} {α fl dl s be p : ℝ} {g : Nat → ℝ}
    {src : Nat → Axis → Nat → Nat → ℝ} {l : Layer ℝ} (h : mk' id mag anis Ms d S N α fl dl s be p g src = .ok l) :
    Fresh anis Ms d N α l ∧ l.includeSTT = false ∧ l.includeSOT = false ∧ l.fieldLikeTorque = fl ∧ l.dampingLikeTorque = dl ∧
      l.slonczewski = s ∧ l.beta = be ∧ l.spinPolarisation = p := by
  unfold mk' at h
  split at h
  · cases h
  · split at h
    · cases h
    · cases h
      exact ⟨by constructor <;> first | rfl | simp, rfl, rfl, rfl, rfl, rfl, rfl, rfl⟩

theorem null_num (t : ℝ) : (ScalarDriver.null : ScalarDriver ℝ).value t = 0 := by simp [ScalarDriver.null, ScalarDriver.value]

theorem null_vec (t : ℝ) : (AxialDriver.null : AxialDriver ℝ).value t = ⟨0, 0, 0⟩ := by
  simp [AxialDriver.null, AxialDriver.value, null_num]

theorem zero_stray (Ms : ℝ) (m : CVec ℝ) : tensorField .zero Ms m = ⟨0, 0, 0⟩ := by
  unfold tensorField
  simp [Tensor.zero]

theorem getD_vec (o : Option (AxialDriver ℝ)) (t : ℝ) : (o.getD .null).value t = vecAt o t := by
  cases o <;> simp [vecAt, null_vec]

theorem getD_num (o : Option (ScalarDriver ℝ)) (t : ℝ) : (o.getD .null).value t = numAt o t := by
  cases o <;> simp [numAt, null_num]

theorem getD_stray (o : Option (Tensor ℝ)) (Ms : ℝ) (m : CVec ℝ) : tensorField (o.getD .zero) Ms m = strayAt o Ms m := by
  cases o <;> simp [strayAt, zero_stray]

section
variable {calls : List Setting} {anis : CVec ℝ} {Ms d α : ℝ} {N : Tensor ℝ} {l0 l : Layer ℝ}

theorem field_calls (h : Set_ calls l0 l) (h0 : Fresh anis Ms d N α l0) (t : ℝ) (m b a : CVec ℝ) :
    field l t m b a = fieldOf calls anis Ms d N t m b a := by
  unfold field fieldOf heffSpec
  simp only [h.ext, h.oe, h.hdmi, h.res, h.K, h.ib, h.it, h.qb, h.qt, h.db, h.dt, h.pb, h.pt, h.Ms, h.thickness, h.demag, h.anis,
    h0.ext, h0.oe, h0.hdmi, h0.res, h0.K, h0.ib, h0.it, h0.qb, h0.qt, h0.db, h0.dt, h0.pb, h0.pt, h0.Ms, h0.thickness, h0.demag,
    h0.anis, getD_vec, getD_num, getD_stray]
  ext <;> simp only [CVec.add_x, CVec.add_y, CVec.add_z, CVec.sub_x, CVec.sub_y, CVec.sub_z] <;> ring

theorem polariser_calls (h : Set_ calls l0 l) (h0 : Fresh anis Ms d N α l0) (b a : CVec ℝ) : polariser l b a = polarisation calls := by
  unfold polariser polarisation
  rw [h.reft, h.refl, h0.reft]
  cases lastSet (fun | .reference v => some v | _ => none) calls <;> simp

theorem llg_calls (h : Set_ calls l0 l) (h0 : Fresh anis Ms d N α l0) (hg : Ms * d ≠ 0) (t : ℝ) (m b a : CVec ℝ) :
    (l.llg t m b a).res = .ok (gilbert α m (fieldOf calls anis Ms d N t m b a) (spinTorque l t m (polarisation calls))) := by
  have g : l.Guard := by simp [Guard, h.Ms, h.thickness, h0.Ms, h0.thickness] at hg ⊢; exact hg
  obtain ⟨c, hc⟩ := l.llg_ok t m b a g
  rw [hc, Order.llgV_eq l t m b a g]
  unfold motion gilbert
  simp only [field_calls h h0, polariser_calls h h0, h.damping, h0.damping, Out.ok]

end

/-- C116. A plain layer feels the fields set last, its demagnetising field and its damping, and no torque, whatever the
current. -/
theorem C116_plain {id : String} {mag anis : CVec ℝ} {Ms d S α : ℝ} {N : Tensor ℝ} {g : Nat → ℝ} {src : Nat → Axis → Nat → Nat → ℝ}
    {l : Layer ℝ} (h : plain id mag anis Ms d S N α g src = .ok l) (hg : Ms * d ≠ 0) (calls : List Setting) (t : ℝ) (m b a : CVec ℝ) :
    ((calls.foldl Setting.call l).llg t m b a).res = .ok (gilbert α m (fieldOf calls anis Ms d N t m b a) ⟨0, 0, 0⟩) := by
  obtain ⟨h0, h1, h2, -⟩ := mk'_members h
  have hs := calls_set l calls
  rw [llg_calls hs h0 hg, spinTorque, if_neg (by rw [hs.stt, h1]; decide), if_neg (by rw [hs.sot, h2]; decide)]

/-- C116. A layer with spin-orbit torques feels in addition the two torques in proportion to the current. -/
theorem C116_sot {id : String} {mag anis : CVec ℝ} {Ms d S α hf hd : ℝ} {N : Tensor ℝ} {g : Nat → ℝ} {src : Nat → Axis → Nat → Nat → ℝ}
    {l : Layer ℝ} (h : Layer.sot id mag anis Ms d S N α hf hd g src = .ok l) (hg : Ms * d ≠ 0) (calls : List Setting) (t : ℝ)
    (m b a : CVec ℝ) :
    ((calls.foldl Setting.call l).llg t m b a).res =
      .ok (gilbert α m (fieldOf calls anis Ms d N t m b a) (sotTorque calls α hf hd t m)) := by
  unfold Layer.sot at h
  split at h
  · cases h
  rename_i l0 e
  obtain ⟨h0, h1, h2, h3, h4, -⟩ := mk'_members e
  have hF : Fresh anis Ms d N α l := by cases h; obtain ⟨⟩ := h0; constructor <;> assumption
  have q1 : l.includeSTT = false := by cases h; rfl
  have q2 : l.includeSOT = true := by cases h; rfl
  have q3 : l.dynamicSOT = false := by cases h; rfl
  have q4 : l.fieldLikeTorque = hf := by cases h; exact h3
  have q5 : l.dampingLikeTorque = hd := by cases h; exact h4
  have hs := calls_set l calls
  rw [llg_calls hs hF hg, spinTorque, if_neg (by rw [hs.stt, q1]; decide), if_pos (by rw [hs.sot, q2])]
  unfold sotTorque sotFields
  simp only [hs.dyn, q3, hs.fl, q4, hs.dl, q5, hs.cur, hF.cur, getD_num, hs.damping, hF.damping, Bool.false_eq_true, if_false, currentAt]
  congr 2
  ext <;> simp [smul] <;> ring

/-- C116. A layer with spin-transfer torque feels the torque of its Slonczewski parameter, its ratio and its polarisation. -/
theorem C116_stt {id : String} {mag anis : CVec ℝ} {Ms d S α sl be P : ℝ} {N : Tensor ℝ} {g : Nat → ℝ} {src : Nat → Axis → Nat → Nat → ℝ}
    {l : Layer ℝ} (h : Layer.stt id mag anis Ms d S N α sl be P g src = .ok l) (hg : Ms * d ≠ 0) (calls : List Setting) (t : ℝ)
    (m b a : CVec ℝ) :
    ((calls.foldl Setting.call l).llg t m b a).res =
      .ok (gilbert α m (fieldOf calls anis Ms d N t m b a) (sttTorque calls Ms d sl be P t m)) := by
  unfold Layer.stt at h
  split at h
  · cases h
  rename_i l0 e
  obtain ⟨h0, h1, h2, -, -, h3, h4, h5⟩ := mk'_members e
  have hF : Fresh anis Ms d N α l := by cases h; obtain ⟨⟩ := h0; constructor <;> assumption
  have q1 : l.includeSTT = true := by cases h; rfl
  have q3 : l.slonczewski = sl := by cases h; exact h3
  have q4 : l.beta = be := by cases h; exact h4
  have q5 : l.spinPolarisation = P := by cases h; exact h5
  have hs := calls_set l calls
  rw [llg_calls hs hF hg, spinTorque, if_pos (by rw [hs.stt, q1])]
  unfold sttTorque sttAmplitude sttEfficiency sttDenominator
  simp only [hs.slon, q3, hs.beta, q4, hs.pol, q5, hs.cur, hF.cur, getD_num, hs.kap, hF.kap, hs.alt, hF.alt, hs.Ms, hs.thickness, hF.Ms,
    hF.thickness, currentAt]
  have e : ((lastSet (fun | .alternative b => some b | _ => none) calls).getD false = true) =
      (lastSet (fun | .alternative b => some b | _ => none) calls = some true) := by
    cases lastSet (fun | .alternative b => some b | _ => none) calls <;> simp
  simp only [e]
  split <;> rfl

/-- C116. After construction and configuration a layer has logged no field and no current, and feels no noise. -/
theorem C116_record {id : String} {mag anis : CVec ℝ} {Ms d S α p q r : ℝ} {N : Tensor ℝ} {g : Nat → ℝ} {src : Nat → Axis → Nat → Nat → ℝ}
    {l : Layer ℝ} (h : plain id mag anis Ms d S N α g src = .ok l ∨ Layer.sot id mag anis Ms d S N α p q g src = .ok l ∨
      Layer.stt id mag anis Ms d S N α p q r g src = .ok l) (calls : List Setting) :
    (calls.foldl Setting.call l).cache.I = 0 ∧ (calls.foldl Setting.call l).cache.Hfluctuation = ⟨0, 0, 0⟩ ∧
      ¬ Noisy (calls.foldl Setting.call l) := by
  have h0 : l.cache = .init ∧ l.temperatureSet = false ∧ l.nonStochasticTempSet = false ∧ l.pinkNoiseSet = false ∧ l.noiseParams.scaleNoise = 0 := by
    have hk : ∀ {x y z w v l}, mk' id mag anis Ms d S N α x y z w v g src = .ok l →
        l.cache = .init ∧ l.temperatureSet = false ∧ l.nonStochasticTempSet = false ∧ l.pinkNoiseSet = false ∧ l.noiseParams.scaleNoise = 0 := by
      intro x y z w v l h
      unfold mk' at h
      split at h
      · cases h
      · split at h
        · cases h
        · cases h; exact ⟨rfl, rfl, rfl, rfl, by simp⟩
    rcases h with h | h | h
    · exact hk h
    · unfold Layer.sot at h
      split at h
      · cases h
      · rename_i e; have := hk e; cases h; exact this
    · unfold Layer.stt at h
      split at h
      · cases h
      · rename_i e; have := hk e; cases h; exact this
  have h1 : ∀ cs : List Setting, ∀ l : Layer ℝ,
      (l.cache = .init ∧ l.temperatureSet = false ∧ l.nonStochasticTempSet = false ∧ l.pinkNoiseSet = false ∧ l.noiseParams.scaleNoise = 0) →
      ((cs.foldl Setting.call l).cache = .init ∧ (cs.foldl Setting.call l).temperatureSet = false ∧
        (cs.foldl Setting.call l).nonStochasticTempSet = false ∧ (cs.foldl Setting.call l).pinkNoiseSet = false ∧
        (cs.foldl Setting.call l).noiseParams.scaleNoise = 0) := by
    intro cs
    induction cs with
    | nil => intro l h; exact h
    | cons c cs ih =>
      intro l h
      refine ih _ ?_
      cases c <;> exact h
  obtain ⟨e1, e2, e3, e4, e5⟩ := h1 calls l h0
  refine ⟨by rw [e1]; simp [LayerLog.init], by rw [e1]; simp [LayerLog.init, CVec.zero], ?_⟩
  simp [Noisy, e2, e3, e4, e5]

/-- Layers of the three kinds exist, with the values an example of the documentation could have. -/
example : (∃ l, plain "free" ⟨0, 0, 1⟩ ⟨0, 0, 1⟩ (1 : ℝ) 2 3 .zero 1 (fun _ => 0) (fun _ _ _ _ => 0) = .ok l) ∧
    (∃ l, Layer.sot "free" ⟨0, 0, 1⟩ ⟨0, 0, 1⟩ (1 : ℝ) 2 3 .zero 1 4 5 (fun _ => 0) (fun _ _ _ _ => 0) = .ok l) ∧
    (∃ l, Layer.stt "free" ⟨0, 0, 1⟩ ⟨0, 0, 1⟩ (1 : ℝ) 2 3 .zero 1 4 5 6 (fun _ => 0) (fun _ _ _ _ => 0) = .ok l) ∧
    (1 : ℝ) * 2 ≠ 0 := by
  have hz : (⟨0, 0, 1⟩ : CVec ℝ) ≠ ⟨0, 0, 0⟩ := by simp
  have hk := fun a1 a2 a3 a4 a5 => (C17_constructors_partial "free" ⟨0, 0, 1⟩ ⟨0, 0, 1⟩ 1 2 3 .zero 1 a1 a2 a3 a4 a5
    (fun _ => 0) (fun _ _ _ _ => 0)).2.2 hz hz
  refine ⟨?_, ?_, ?_, by norm_num⟩
  · obtain ⟨l, h, -⟩ := hk 0 0 0 0 0
    exact ⟨l, by unfold plain; simpa using h⟩
  · obtain ⟨l, h, -⟩ := hk 4 5 0 0 0
    refine ⟨{ l with includeSTT := false, includeSOT := true, dynamicSOT := false }, ?_⟩
    unfold Layer.sot
    simp [h]
  · obtain ⟨l, h, -⟩ := hk 0 0 4 5 6
    refine ⟨{ l with includeSTT := true, includeSOT := false }, ?_⟩
    unfold Layer.stt
    simp [h]

end Layer
