import Verif.Props.Record

/-! # C114: what a step with noise does, and that such runs complete -/

set_option linter.unusedSectionVars false
set_option linter.unusedSimpArgs false

namespace Spec
open Layer

/-- Standard deviation of the thermal field. -/
noncomputable def thermalStd (l : Layer ℝ) (t : ℝ) : ℝ :=
  Real.sqrt (2 * l.damping * (1.380649 / 10 ^ 23) * l.temperatureDriver.value t / (l.Ms * l.cellVolume * 220880))

/-- The thermal field of a step: three fresh draws times the standard deviation. -/
noncomputable def thermalField (l : Layer ℝ) (t : ℝ) : CVec ℝ :=
  if l.temperatureSet = true then smul (thermalStd l t) ⟨l.gauss l.gpos, l.gauss (l.gpos + 1), l.gauss (l.gpos + 2)⟩ else ⟨0, 0, 0⟩

/-- The 1/f field of a step: the next value of the generator of the layer. -/
noncomputable def pinkField (l : Layer ℝ) : CVec ℝ :=
  if l.noiseParams.scaleNoise = 0 then ⟨0, 0, 0⟩ else
  match l.bfn with
  | some b => b.tickVector.1
  | none => ⟨0, 0, 0⟩

/-- The noise field of a step. -/
noncomputable def noiseField (l : Layer ℝ) (t : ℝ) : CVec ℝ := thermalField l t + pinkField l

/-- The torque of a fluctuating field `w`: `-γ/(1+α²) (m × w + α m × (m × w))`. -/
noncomputable def kick (l : Layer ℝ) (m w : CVec ℝ) : CVec ℝ :=
  smul (-(220880 / (1 + l.damping ^ 2))) (m.cross w + smul l.damping (m.cross (m.cross w)))

/-- Euler-Heun: Euler in the deterministic part, the mean of two slopes in the noise. -/
noncomputable def eulerHeunUpdate (l : Layer ℝ) (t dt : ℝ) (b a : CVec ℝ) : CVec ℝ :=
  let w := noiseField l t
  let g := kick l l.mag w
  l.mag + smul dt (motion l t l.mag b a) + smul (Real.sqrt dt / 2) (g + kick l (l.mag + smul (Real.sqrt dt) g) w)

/-- The predictor of the stochastic Heun method for layer `q` of a stack. -/
noncomputable def heunPredictor (ls : List (Layer ℝ)) (t dt : ℝ) (q : Nat) : CVec ℝ :=
  match ls[q]? with
  | some l => l.mag + smul dt (motion l t l.mag (magBelow ls q) (magAbove ls q)) + smul (Real.sqrt dt) (kick l l.mag (noiseField l t))
  | none => ⟨0, 0, 0⟩

/-- Heun: the mean of the slopes at both ends, in the deterministic part as in the noise. -/
noncomputable def heunUpdate (ls : List (Layer ℝ)) (t dt : ℝ) (q : Nat) (l : Layer ℝ) : CVec ℝ :=
  let b := if q = 0 then ⟨0, 0, 0⟩ else heunPredictor ls t dt (q - 1)
  let a := heunPredictor ls t dt (q + 1)
  let x := heunPredictor ls t dt q
  l.mag + smul (dt / 2) (motion l t l.mag (magBelow ls q) (magAbove ls q) + motion l (t + dt) x b a) +
    smul (Real.sqrt dt / 2) (kick l l.mag (noiseField l t) + kick l x (noiseField l t))

end Spec

namespace Junction
open Spec Layer

/-- helper -/
theorem kick_eq (l : Layer ℝ) (m w : CVec ℝ) : l.stochasticTorque m w = kick l m w := by
  unfold stochasticTorque kick
  ext <;>
  · simp only [smul, Const.gyro, CVec.mulr_x, CVec.mulr_y, CVec.mulr_z, CVec.add_x, CVec.add_y, CVec.add_z,
      Scalar.powi_real, Scalar.ofNat_real, Scalar.ofSci_real_true, Nat.cast_one]
    norm_num
    ring

/-- helper -/
theorem langevin_ok {l : Layer ℝ} {t : ℝ} {w : CVec ℝ} {l' : Layer ℝ} (h : l.langevinVector t = .ok w l') :
    w = thermalField l t ∧ l' = l.setGpos (if l.temperatureSet = true then l.gpos + 3 else l.gpos) := by
  by_cases hT : l.temperatureSet = true
  · rcases hs : l.langevinStd t with e | sd
    · unfold langevinVector at h
      simp [hT, hs, Out.ok, Out.fail] at h
    · have hf := (C33_formula l t sd hs).2
      have h1 := C33_vector l t hT sd hs
      unfold langevinVector at h
      simp only [hT, Bool.not_true, Bool.false_eq_true, if_false, hs] at h
      simp only [Out.ok, Out.mk.injEq, Except.ok.injEq] at h
      refine ⟨?_, ?_⟩
      · rw [← h.1]
        unfold thermalField thermalStd
        rw [if_pos hT, ← hf]
        ext <;> simp [smul, CVec.ofStream, mul_comm]
      · rw [← h.2, if_pos hT]; rfl
  · have hT' : l.temperatureSet = false := by simpa using hT
    rw [C33_vector_cold l t hT'] at h
    simp only [Out.ok, Out.mk.injEq, Except.ok.injEq] at h
    refine ⟨?_, ?_⟩
    · unfold thermalField; rw [if_neg hT, h.1]
    · rw [if_neg hT, ← h.2]; rfl

/-- helper -/
theorem oneF_ok {l : Layer ℝ} {w : CVec ℝ} {l' : Layer ℝ} (h : l.oneFVector = .ok w l') :
    w = pinkField l ∧ Same l l' ∧ l'.mag = l.mag ∧ l'.gpos = l.gpos := by
  unfold oneFVector at h
  unfold pinkField
  by_cases hs : l.noiseParams.scaleNoise = 0
  · rw [if_pos (by simp [hs])] at h
    simp only [Out.ok, Out.mk.injEq, Except.ok.injEq] at h
    obtain ⟨rfl, rfl⟩ := h
    rw [if_pos hs]
    exact ⟨by ext <;> simp, .refl _, rfl, rfl⟩
  · rw [if_neg (by simp [hs])] at h
    rw [if_neg hs]
    cases hb : l.bfn with
    | none => rw [hb] at h; simp [Out.ok, Out.fail] at h
    | some b =>
      rw [hb] at h
      simp only [Out.ok, Out.mk.injEq, Except.ok.injEq] at h
      obtain ⟨rfl, rfl⟩ := h
      exact ⟨rfl, ⟨l.mag, l.cache, l.gpos, _, _, rfl⟩, rfl, rfl⟩

/-- helper -/
theorem pink_gpos (l : Layer ℝ) (p : Nat) : pinkField (l.setGpos p) = pinkField l := rfl

/-- helper -/
theorem kick_same {l l' : Layer ℝ} (h : Same l l') (m w : CVec ℝ) : l'.stochasticTorque m w = kick l m w := by
  rw [kick_eq]; obtain ⟨_, _, _, _, _, rfl⟩ := h; rfl

/-- helper -/
theorem mul_smul' (v : CVec ℝ) (c : ℝ) : v * c = smul c v := by ext <;> simp [smul, mul_comm]
/-- helper -/
theorem half_smul (v : CVec ℝ) (c : ℝ) : smul c ((1 / 2 : ℝ) * v) = smul (c / 2) v := by
  ext <;> simp only [smul, CVec.mull_x, CVec.mull_y, CVec.mull_z] <;> ring

/-- helper -/
theorem store_mag : ∀ (ls : List (Layer ℝ)) (ms : List (CVec ℝ)) (i : Nat) (a : Layer ℝ) (m : CVec ℝ),
    ls[i]? = some a → ms[i]? = some m → (storeMags ls ms)[i]? = some (a.setMag m.normalize) := by
  intro ls
  induction ls with
  | nil => intro ms i a m ha; simp at ha
  | cons x ls ih =>
    intro ms i a m ha hm
    cases ms with
    | nil => simp at hm
    | cons y ms =>
      cases i with
      | zero => simp at ha hm; subst ha; subst hm; simp [storeMags]
      | succ i => simp at ha hm; simpa [storeMags] using ih ms i a m ha hm

/-- helper -/
theorem euler_value {ms : List (CVec ℝ)} {t dt : ℝ} {i : Nat} {l l' : Layer ℝ} {v : CVec ℝ} (h : eulerHeunLayer ms t dt i l = .ok v l') :
    v = eulerHeunUpdate l t dt (below ms i) (above ms i) ∧ l'.gpos = if l.temperatureSet = true then l.gpos + 3 else l.gpos := by
  unfold eulerHeunLayer at h
  obtain ⟨w1, l1, h1, h⟩ := Out.bind_eq_ok h
  obtain ⟨w2, l2, h2, h⟩ := Out.bind_eq_ok h
  obtain ⟨f, l3, h3, h⟩ := Out.bind_eq_ok h
  obtain ⟨e1, s1⟩ := langevin_ok h1
  obtain ⟨e2, q2, m2, g2⟩ := oneF_ok h2
  obtain ⟨hg, e3, s3, -, -⟩ := llg_rec _ _ _ _ _ h3
  have q1 : Same l l1 := by rw [s1]; exact ⟨l.mag, l.cache, _, l.bfn, l.bfnCount, rfl⟩
  have q12 := q1.trans q2
  have q3 : Same l l3 := q12.trans (by rw [s3]; exact same_setCache _ _)
  have m1 : l2.mag = l.mag := by rw [m2, s1]; rfl
  have m3 : l3.mag = l.mag := by rw [s3]; exact m1
  have ef : f = motion l t l.mag (below ms i) (above ms i) := by
    rw [e3, m1]
    obtain ⟨_, _, _, _, _, e⟩ := q12
    rw [e]
    exact Order.llgV_eq _ _ _ _ _ (by rw [e] at hg; exact hg)
  simp only [Out.ok, Out.mk.injEq, Except.ok.injEq] at h
  refine ⟨?_, ?_⟩
  · rw [← h.1]
    have ew : w1 + w2 = noiseField l t := by rw [e1, e2, s1, pink_gpos]; rfl
    simp only [ew, kick_same q3, m3, ef, mul_smul', eulerHeunUpdate, Scalar.sqrt_real, Scalar.ofSci_real_true]
    norm_num only
    simp only [half_smul]
  · rw [← h.2, s3]
    exact g2.trans (by rw [s1]; rfl)

/-- C114. A successful Euler-Heun step advances every layer by the stochastic Euler-Heun scheme, neighbours taken before
the step, and consumes three draws of every layer with a temperature. -/
theorem C114_eulerHeun {j k : Junction ℝ} {t dt : ℝ} (h : j.eulerHeunSolverStep t dt = .ok () k) {q : Nat} {l : Layer ℝ}
    (hl : j.layers[q]? = some l) : ∃ l', k.layers[q]? = some l' ∧
      l'.mag = (eulerHeunUpdate l t dt (magBelow j.layers q) (magAbove j.layers q)).normalize ∧
      l'.gpos = if l.temperatureSet = true then l.gpos + 3 else l.gpos := by
  unfold eulerHeunSolverStep at h
  dsimp only at h
  rcases hs : Out.traverse (eulerHeunLayer (j.layers.map Layer.mag) t dt) 0 j.layers with ⟨_ | ms, ls⟩
  · rw [hs] at h; simp [Out.ok, Out.fail] at h
  rw [hs] at h
  simp only [Out.ok, Out.mk.injEq, true_and] at h
  obtain ⟨-, -, h3⟩ := Out.traverse_ok _ hs
  obtain ⟨m, l', hm, hl', hst⟩ := h3 q l hl
  rw [Nat.zero_add] at hst
  obtain ⟨e1, e2⟩ := euler_value hst
  refine ⟨l'.setMag m.normalize, ?_, ?_, e2⟩
  · rw [← h]; exact store_mag _ _ _ _ _ hl' hm
  · rw [← below_eq, ← above_eq, ← e1]; rfl

/-- helper -/
theorem predict_value {ms : List (CVec ℝ)} {t dt : ℝ} {i : Nat} {l l' : Layer ℝ} {v : HeunStage ℝ} (h : heunPredict ms t dt i l = .ok v l') :
    v.fn = motion l t l.mag (below ms i) (above ms i) ∧ v.dW = noiseField l t ∧ v.gn = kick l l.mag (noiseField l t) ∧
      v.mNext = l.mag + smul dt v.fn + smul (Real.sqrt dt) v.gn ∧ Same l l' ∧ l'.mag = l.mag ∧
      l'.gpos = if l.temperatureSet = true then l.gpos + 3 else l.gpos := by
  unfold heunPredict at h
  obtain ⟨f, l3, h3, h⟩ := Out.bind_eq_ok h
  obtain ⟨w1, l1, h1, h⟩ := Out.bind_eq_ok h
  obtain ⟨w2, l2, h2, h⟩ := Out.bind_eq_ok h
  obtain ⟨hg, e3, s3, -, -⟩ := llg_rec _ _ _ _ _ h3
  obtain ⟨e1, s1⟩ := langevin_ok h1
  obtain ⟨e2, q2, m2, g2⟩ := oneF_ok h2
  have q3 : Same l l3 := by rw [s3]; exact same_setCache _ _
  have q1 : Same l l1 := q3.trans (by rw [s1]; exact ⟨l3.mag, l3.cache, _, l3.bfn, l3.bfnCount, rfl⟩)
  have q12 := q1.trans q2
  have m3 : l2.mag = l.mag := by rw [m2, s1, s3]; rfl
  have ew : w1 + w2 = noiseField l t := by
    rw [e1, e2, s1, pink_gpos, s3]; rfl
  simp only [Out.ok, Out.mk.injEq, Except.ok.injEq] at h
  rw [← h.1, ← h.2]
  refine ⟨by rw [e3]; exact Order.llgV_eq _ _ _ _ _ hg, ew, ?_, ?_, q12, m3, ?_⟩
  · simp only [ew, kick_same q12, m3]
  · simp only [m3, mul_smul', Scalar.sqrt_real]
  · rw [g2, s1, s3]; rfl

/-- C114. A successful Heun step advances every layer by the stochastic Heun scheme, the corrector taken at the predicted
state of the whole stack, and consumes three draws of every layer with a temperature. -/
theorem C114_heun {j k : Junction ℝ} {t dt : ℝ} (h : j.heunSolverStep t dt = .ok () k) {q : Nat} {l : Layer ℝ}
    (hl : j.layers[q]? = some l) : ∃ l', k.layers[q]? = some l' ∧ l'.mag = (heunUpdate j.layers t dt q l).normalize ∧
      l'.gpos = if l.temperatureSet = true then l.gpos + 3 else l.gpos := by
  unfold heunSolverStep at h
  dsimp only at h
  rcases ht : Out.traverse (heunPredict (j.layers.map Layer.mag) t dt) 0 j.layers with ⟨_ | stages, ls⟩
  · rw [ht] at h; simp [Out.ok, Out.fail] at h
  rw [ht] at h
  dsimp only at h
  rcases hu : Out.traverse (heunCorrect stages t dt) 0 ls with ⟨_ | _, ls2⟩
  · rw [hu] at h; simp [Out.ok, Out.fail] at h
  rw [hu] at h
  simp only [Out.ok, Out.mk.injEq, true_and] at h
  obtain ⟨hlen, -, h3⟩ := Out.traverse_ok _ (bs := stages) (as' := ls) (by rw [ht]; rfl)
  obtain ⟨-, -, h4⟩ := Out.traverse_ok _ (bs := _) (as' := ls2) (by rw [hu]; rfl)
  have hp : ∀ i, (stages.map HeunStage.mNext).getD i .zero = heunPredictor j.layers t dt i := by
    intro i
    unfold heunPredictor
    rcases hi : j.layers[i]? with _ | x
    · have : stages.length ≤ i := by rw [hlen]; exact List.getElem?_eq_none_iff.1 hi
      rw [List.getD_eq_getElem?_getD, List.getElem?_eq_none_iff.2 (by simpa using this)]
      ext <;> simp
    · obtain ⟨v, y, hv, -, hf⟩ := h3 i x hi
      rw [Nat.zero_add] at hf
      obtain ⟨p1, p2, p3, p4, -⟩ := predict_value hf
      rw [List.getD_eq_getElem?_getD, List.getElem?_map, hv]
      simp only [Option.map_some, Option.getD_some]
      rw [p4, p3, p1, below_eq, above_eq]
  obtain ⟨v, y, hv, hy, hf⟩ := h3 q l hl
  obtain ⟨_, z, -, hz, hc⟩ := h4 q y hy
  rw [Nat.zero_add] at hf hc
  obtain ⟨p1, p2, p3, p4, ps, pm, pg⟩ := predict_value hf
  unfold heunCorrect at hc
  rw [hv] at hc
  dsimp only at hc
  obtain ⟨f, l1, h1, hc⟩ := Out.bind_eq_ok hc
  obtain ⟨hg, e1, s1, -, -⟩ := llg_rec _ _ _ _ _ h1
  have sl1 : Same l l1 := ps.trans (by rw [s1]; exact same_setCache _ _)
  have hm : l1.mag = l.mag := by rw [s1]; exact pm
  have hx : v.mNext = heunPredictor j.layers t dt q := by
    rw [← hp, List.getD_eq_getElem?_getD, List.getElem?_map, hv]; rfl
  have hb : below (stages.map HeunStage.mNext) q = if q = 0 then ⟨0, 0, 0⟩ else heunPredictor j.layers t dt (q - 1) := by
    unfold below
    split
    · ext <;> simp
    · exact hp _
  have ha : above (stages.map HeunStage.mNext) q = heunPredictor j.layers t dt (q + 1) := by
    unfold above
    rw [List.length_map]
    split
    · next e =>
      have hq : q < j.layers.length := (List.getElem?_eq_some_iff.1 hl).1
      have : j.layers[q + 1]? = none := List.getElem?_eq_none_iff.2 (by omega)
      unfold heunPredictor
      rw [this]; ext <;> simp
    · exact hp _
  have ef : f = motion l (t + dt) v.mNext (below (stages.map HeunStage.mNext) q) (above (stages.map HeunStage.mNext) q) := by
    rw [e1]
    obtain ⟨_, _, _, _, _, e⟩ := ps
    rw [e]
    exact Order.llgV_eq _ _ _ _ _ (by rw [e] at hg; exact hg)
  simp only [Out.ok, Out.mk.injEq, true_and] at hc
  refine ⟨z, by rw [← h]; exact hz, ?_, ?_⟩
  · rw [← hc]
    unfold heunUpdate
    simp only [setMag, hm, kick_same sl1, ef, p1, p2, p3, hx, hb, ha, below_eq, above_eq, Scalar.ofSci_real_true, mul_smul', Scalar.sqrt_real]
    norm_num only
    simp only [half_smul]
    congr 2
    congr 1
    ext <;> simp only [smul, CVec.mull_x, CVec.mull_y, CVec.mull_z] <;> ring
  · rw [← hc, s1]; exact pg

/-- The solver uses the noise. -/
def Stochastic (r : Runner) : Prop := r = .heun ∨ r = .eulerHeun

/-- C114. In a run with a stochastic solver step `i` of a layer with a temperature uses the draws `3i`, `3i + 1` and
`3i + 2` of its generator: no draw is used twice, none is left out. -/
theorem C114_draws {r : Runner} (hr : Stochastic r) {dt : ℝ} {i : Nat} {j p : Junction ℝ} (h : steps r dt 0 i j = .ok () p) {q : Nat}
    {l : Layer ℝ} (hl : j.layers[q]? = some l) : ∃ l', p.layers[q]? = some l' ∧ Same l l' ∧
      l'.gpos = (if l.temperatureSet = true then l.gpos + 3 * i else l.gpos) ∧
      ∀ t, l.temperatureSet = true → thermalField l' t = smul (thermalStd l t)
        ⟨l.gauss (l.gpos + 3 * i), l.gauss (l.gpos + 3 * i + 1), l.gauss (l.gpos + 3 * i + 2)⟩ := by
  have key : ∀ i p, evolve r dt 0 i j = .ok () p → ∃ l', p.layers[q]? = some l' ∧ Same l l' ∧
      l'.gpos = (if l.temperatureSet = true then l.gpos + 3 * i else l.gpos) := by
    intro i
    induction i with
    | zero =>
      intro p h
      simp only [evolve, Out.ok, Out.mk.injEq, true_and] at h
      subst h
      exact ⟨l, hl, .refl _, by simp⟩
    | succ i ih =>
      intro p h
      rw [evolve_add] at h
      obtain ⟨⟨⟩, a, ha, h⟩ := Out.bind_eq_ok h
      rw [Nat.zero_add] at h
      unfold evolve at h
      obtain ⟨⟨⟩, b, hb, h⟩ := Out.bind_eq_ok h
      simp only [evolve, Out.ok, Out.mk.injEq, true_and] at h
      subst h
      obtain ⟨l1, h1, h2, h3⟩ := ih a ha
      have hs := runStep_same a r (Scalar.lit (i : ℚ) * dt) dt
      rw [hb] at hs
      obtain ⟨l2, g1, g2⟩ := hs.getElem?_some h1
      have hT : l1.temperatureSet = l.temperatureSet := by obtain ⟨_, _, _, _, _, rfl⟩ := h2; rfl
      have : ∃ l', b.layers[q]? = some l' ∧ l'.gpos = if l1.temperatureSet = true then l1.gpos + 3 else l1.gpos := by
        rcases hr with rfl | rfl
        · obtain ⟨l', e1, -, e2⟩ := C114_heun hb h1; exact ⟨l', e1, e2⟩
        · obtain ⟨l', e1, -, e2⟩ := C114_eulerHeun hb h1; exact ⟨l', e1, e2⟩
      obtain ⟨l', e1, e2⟩ := this
      have : some l' = some l2 := by rw [← e1, ← g1]; rfl
      cases this
      refine ⟨_, g1, h2.trans g2, ?_⟩
      rw [e2, hT, h3]
      split <;> rfl
  rw [steps_eq_evolve] at h
  obtain ⟨l', h1, h2, h3⟩ := key i p h
  refine ⟨l', h1, h2, h3, fun t hT => ?_⟩
  rw [if_pos hT] at h3
  unfold thermalField thermalStd
  rw [h3]
  obtain ⟨_, _, _, _, _, rfl⟩ := h2
  simp [hT]

/-- helper -/
theorem thermal_ok {l : Layer ℝ} (hv : l.temperatureSet = true → l.cellVolume ≠ 0) (t : ℝ) :
    ∃ w p, l.langevinVector t = .ok w (l.setGpos p) := by
  by_cases hT : l.temperatureSet = true
  · rcases hs : l.langevinStd t with e | sd
    · exact absurd ((C33_error_iff l t e).1 hs).1 (hv hT)
    · unfold langevinVector
      simp only [hT, Bool.not_true, Bool.false_eq_true, if_false, hs]
      exact ⟨_, _, rfl⟩
  · refine ⟨⟨0, 0, 0⟩, l.gpos, ?_⟩
    rw [C33_vector_cold l t (by simpa using hT)]; rfl

/-- helper -/
def Sound (l : Layer ℝ) : Prop := l.Guard ∧ l.noiseParams.scaleNoise = 0 ∧ (l.temperatureSet = true → l.cellVolume ≠ 0)

/-- helper -/
theorem Sound.same {l l' : Layer ℝ} (hs : Same l l') (h : Sound l) : Sound l' := by obtain ⟨_, _, _, _, _, rfl⟩ := hs; exact h

/-- helper -/
theorem stochastic_step_ok {r : Runner} (hr : Stochastic r) (j : Junction ℝ) (h : ∀ l ∈ j.layers, Sound l) (t dt : ℝ) :
    ∃ k, j.runStep r t dt = .ok () k := by
  have hO : ∀ l : Layer ℝ, Sound l → l.oneFVector = .ok .zero l := fun l hl => by
    unfold oneFVector; rw [if_pos (by simp [hl.2.1])]
  rcases hr with rfl | rfl
  · unfold runStep heunSolverStep
    dsimp only
    obtain ⟨bs, as, h', hb, ha, hP⟩ := Out.traverse_exists (heunPredict (j.layers.map Layer.mag) t dt)
      (fun _ _ _ l' => l'.Guard) 0 j.layers (fun k l hl => by
        have hm := h l (List.mem_of_getElem? hl)
        obtain ⟨c, hc⟩ := l.llg_ok t l.mag (below (j.layers.map Layer.mag) (0 + k)) (above (j.layers.map Layer.mag) (0 + k)) hm.1
        unfold heunPredict
        rw [hc]
        simp only [Out.bind_ok]
        have hc' : Sound (l.setCache c) := hm
        obtain ⟨w, p, e1⟩ := thermal_ok hc'.2.2 t
        rw [e1]; simp only [Out.bind_ok]
        rw [hO _ (show Sound ((l.setCache c).setGpos p) from hm)]; simp only [Out.bind_ok]
        exact ⟨_, _, rfl, hm.1⟩)
    rw [h']
    dsimp only [Out.ok]
    obtain ⟨bs', as', h', -⟩ := Out.traverse_exists (heunCorrect bs t dt) (fun _ _ _ _ => True) 0 as (fun k l hl => by
        have hk : k < as.length := (List.getElem?_eq_some_iff.1 hl).1
        have hkb : k < bs.length := by omega
        have hkj : k < j.layers.length := by omega
        have hG := hP k _ _ l (List.getElem?_eq_getElem hkj) (List.getElem?_eq_getElem hkb) hl
        unfold heunCorrect
        rw [Nat.zero_add, List.getElem?_eq_getElem hkb]
        dsimp only
        obtain ⟨c, hc⟩ := l.llg_ok (t + dt) bs[k].mNext (below (bs.map HeunStage.mNext) k) (above (bs.map HeunStage.mNext) k) hG
        rw [hc]
        exact ⟨_, _, rfl, trivial⟩)
    rw [h']; exact ⟨_, rfl⟩
  · unfold runStep eulerHeunSolverStep
    dsimp only
    obtain ⟨bs, as, h', hb, ha, hP⟩ := Out.traverse_exists (eulerHeunLayer (j.layers.map Layer.mag) t dt)
      (fun _ _ _ _ => True) 0 j.layers (fun k l hl => by
        have hm := h l (List.mem_of_getElem? hl)
        obtain ⟨w, p, e1⟩ := thermal_ok hm.2.2 t
        obtain ⟨c, hc⟩ := (l.setGpos p).llg_ok t (l.setGpos p).mag (below (j.layers.map Layer.mag) (0 + k)) (above (j.layers.map Layer.mag) (0 + k)) hm.1
        unfold eulerHeunLayer
        rw [e1]; simp only [Out.bind_ok]
        rw [hO _ (show Sound (l.setGpos p) from hm)]; simp only [Out.bind_ok]
        rw [hc]; simp only [Out.bind_ok]
        exact ⟨_, _, rfl, trivial⟩)
    rw [h']; exact ⟨_, rfl⟩

/-- helper -/
theorem stochastic_evolve_ok {r : Runner} (hr : Stochastic r) (dt : ℝ) (n i : Nat) (j : Junction ℝ) (h : ∀ l ∈ j.layers, Sound l) :
    ∃ k, evolve r dt i n j = .ok () k := by
  induction n generalizing i j with
  | zero => exact ⟨j, rfl⟩
  | succ n ih =>
    obtain ⟨k, hk⟩ := stochastic_step_ok hr j h (Scalar.lit (i : ℚ) * dt) dt
    have hs := runStep_same j r (Scalar.lit (i : ℚ) * dt) dt
    rw [hk] at hs
    obtain ⟨k2, hk2⟩ := ih (i + 1) k (sames_all (fun _ _ h => Sound.same h) hs h)
    exact ⟨k2, by unfold evolve; rw [hk, Out.bind_ok, hk2]⟩

/-- helper -/
theorem solverLoop_thermal (n : Nat) (mode : SolverMode) (ls : List (Layer ℝ)) (h : ∀ l ∈ ls, l.noiseParams.scaleNoise = 0) :
    ∃ m, solverLoop n mode ls = .ok m ls := by
  induction ls generalizing mode with
  | nil => exact ⟨_, rfl⟩
  | cons l ls ih =>
    obtain ⟨m, hm⟩ := ih (if l.temperatureSet then noisyMode mode else mode) (fun l hl => h l (List.mem_cons_of_mem _ hl))
    refine ⟨m, ?_⟩
    unfold solverLoop
    dsimp only
    rw [if_pos (by simp [h l (by simp)]), hm]
    rfl

/-- C114. A run of a junction whose layers have `Ms·thickness ≠ 0`, no 1/f noise, and a volume if they have a temperature,
completes with every solver. -/
theorem C114_completes (j : Junction ℝ) (hr : Reachable j) (hg : ∀ l ∈ j.layers, l.Ms * l.thickness ≠ 0)
    (hn : ∀ l ∈ j.layers, l.noiseParams.scaleNoise = 0) (hv : ∀ l ∈ j.layers, l.temperatureSet = true → l.cellVolume ≠ 0)
    (total dt wf : ℝ) (en : Bool) (mode : SolverMode) (hdt : 0 < dt) (ht : 0 ≤ total)
    (hT : total / dt < 2 ^ 32) (hle : dt ≤ wf) (hW : wf / dt < 2 ^ 32) :
    ∃ k, j.runSimulation total dt wf en mode = .ok () k := by
  by_cases hq : ∀ l ∈ j.layers, ¬ Noisy l
  · exact C27_completes j hr hg hq total dt wf en mode hdt ht hT hle hW
  have hS : ∀ l ∈ j.layers, Sound l := fun l hl => ⟨by simpa [Guard] using hg l hl, hn l hl, hv l hl⟩
  have hfl : 1 ≤ ⌊wf / dt⌋₊ := by rw [Nat.one_le_floor_iff]; rwa [one_le_div hdt]
  obtain ⟨m, hm⟩ := solverLoop_thermal ⌊total / dt⌋₊ mode j.layers hn
  have hgs : j.getSolver mode ⌊total / dt⌋₊ = .ok (pickRunner j.layerNo m, m) j := by
    unfold getSolver; rw [hm]; rfl
  have hst : Stochastic (pickRunner j.layerNo m) := by
    have := (C31_integrator hgs).1
    have hex : ∃ l ∈ j.layers, Noisy l := by push Not at hq; exact hq
    generalize pickRunner j.layerNo m = r at this
    cases r <;> cases mode <;> simp [Integrator.expected, Runner.integrator, Stochastic, hex] at this ⊢
  unfold runSimulation
  rw [if_neg (by simpa using hle), toUInt_floor _ (div_nonneg ht hdt.le) (by norm_num at hT ⊢; exact hT),
    toUInt_floor _ (div_nonneg (hdt.le.trans hle) hdt.le) (by norm_num at hW ⊢; exact hW)]
  dsimp only
  rw [hgs]
  obtain ⟨k, hk⟩ := stochastic_evolve_ok hst dt ⌊total / dt⌋₊ 0 j hS
  obtain ⟨k', hk', -⟩ := evolve_runLoop _ dt ⌊wf / dt⌋₊ en hk rfl (by omega) (Reachable_inv hr).1
  exact ⟨k', hk'⟩

/-- A layer at 300 K whose draws are all one. -/
noncomputable def hotLayer : Layer ℝ :=
  { quietLayer with
    damping := 1 / 10
    temperatureSet := true
    temperatureDriver := .constantDriver 300
    gauss := fun _ => 1 }

/-- A junction of that layer. -/
noncomputable def hotJ : Junction ℝ := { demoJ with layers := [hotLayer] }

theorem hotJ_constructed : Constructed hotJ := .inl ⟨[hotLayer], by simp [plain, hotJ, demoJ]⟩

/-- helper -/
theorem hot_runs (en : Bool) (mode : SolverMode) : ∃ k, hotJ.runSimulation 1 1 1 en mode = .ok () k :=
  C114_completes hotJ ⟨hotJ, [], hotJ_constructed, rfl⟩ (by simp [hotJ, hotLayer, quietLayer, plainOf, Layer.demo])
    (by simp [hotJ, hotLayer, quietLayer, plainOf, Layer.demo]) (by simp [hotJ, hotLayer, quietLayer, plainOf, Layer.demo]) 1 1 1 en mode
    (by norm_num) (by norm_num) (by norm_num) (by norm_num) (by norm_num)

/-- helper -/
theorem hot_field : (thermalField hotLayer 0).x ≠ 0 := by
  have : 0 < thermalStd hotLayer 0 := by
    unfold thermalStd
    apply Real.sqrt_pos.2
    simp [hotLayer, quietLayer, plainOf, Layer.demo, ScalarDriver.value, ScalarDriver.constantDriver]
  unfold thermalField
  rw [if_pos (show hotLayer.temperatureSet = true from rfl)]
  show thermalStd hotLayer 0 * 1 ≠ 0
  rw [mul_one]
  exact this.ne'

example : ∃ k, hotJ.heunSolverStep 0 1 = .ok () k := by
  obtain ⟨k, hk⟩ := stochastic_step_ok (r := .heun) (.inl rfl) hotJ
    (by simp [hotJ, Sound, Guard, hotLayer, quietLayer, plainOf, Layer.demo]) 0 1
  exact ⟨k, hk⟩
example : ∃ k, hotJ.eulerHeunSolverStep 0 1 = .ok () k := by
  obtain ⟨k, hk⟩ := stochastic_step_ok (r := .eulerHeun) (.inr rfl) hotJ
    (by simp [hotJ, Sound, Guard, hotLayer, quietLayer, plainOf, Layer.demo]) 0 1
  exact ⟨k, hk⟩
example : hotJ.layers[0]? = some hotLayer ∧ hotLayer.temperatureSet = true ∧ kick hotLayer ⟨0, 0, 1⟩ ⟨1, 0, 0⟩ ≠ ⟨0, 0, 0⟩ := by
  refine ⟨rfl, rfl, fun h => ?_⟩
  have := congrArg CVec.y h
  simp [kick, smul, hotLayer, quietLayer, plainOf, Layer.demo] at this
  norm_num at this

/-- C113 is false of the thermal field: the run of a layer at 300 K whose first step is driven by a non-zero thermal
field logs a zero there. -/
theorem C113_thermal_refuted : ∃ (j k : Junction ℝ) (l : Layer ℝ), Reachable j ∧ DistinctIds j ∧ j.layers = [l] ∧ l.temperatureSet = true ∧
    j.runSimulation 1 1 1 true .RK4 = .ok () k ∧ (thermalField l 0).x ≠ 0 ∧ k.log.col (l.id ++ "_Hthx") = [0] := by
  obtain ⟨k, hk⟩ := hot_runs true .RK4
  have hR : Reachable hotJ := ⟨hotJ, [], hotJ_constructed, rfl⟩
  have hd : DistinctIds hotJ := by simp [DistinctIds, hotJ]
  refine ⟨hotJ, k, hotLayer, hR, hd, rfl, rfl, hk, hot_field, ?_⟩
  obtain ⟨N, W, hN, hW, hl⟩ := C113_thermal hR hd hk
  obtain ⟨h1, -, -⟩ := hl hotLayer (by simp [hotJ])
  unfold Appends at h1
  have hs : (sampleSteps N W) = [0] := by
    rw [toUInt_unit] at hN hW; cases hN; cases hW; rfl
  rw [h1, hs]
  simp [hotJ, demoJ, hotLayer, quietLayer, plainOf, Layer.demo, Log.col, LayerLog.init]

end Junction
