import Verif.Props.Stochastic
import Verif.Props.Ticks

/-! # C127: the coloured noise requested for a layer is the one its runs use, one sample per step -/

set_option linter.unusedSectionVars false
set_option linter.unusedSimpArgs false

namespace Spec
open Layer

/-- The field of sample number `i` of coloured noise of strength `scale` along `axis`; `s` are the samples of the three axes. One axis: the
sample times the strength. All axes: a vector of length `scale` along the three samples. -/
noncomputable def colouredField (scale : ℝ) (axis : Axis) (s : Axis → Nat → ℝ) (i : Nat) : CVec ℝ :=
  match axis with
  | .xaxis => ⟨scale * s .xaxis i, 0, 0⟩
  | .yaxis => ⟨0, scale * s .yaxis i, 0⟩
  | .zaxis => ⟨0, 0, scale * s .zaxis i⟩
  | .all => smul (scale / Real.sqrt (s .xaxis i ^ 2 + s .yaxis i ^ 2 + s .zaxis i ^ 2)) ⟨s .xaxis i, s .yaxis i, s .zaxis i⟩
  | .none => ⟨0, 0, 0⟩

/-- A layer whose noise can be generated: no coloured noise, or a proper axis and exponent. -/
def Generable (l : Layer ℝ) : Prop := l.noiseParams.scaleNoise = 0 ∨ (0 ≤ l.noiseParams.alphaNoise ∧ l.noiseParams.axis ≠ .none)

end Spec

namespace Junction
open Spec Layer

/-- helper: the generator of a layer after one more sample -/
noncomputable def nextGen (l : Layer ℝ) : Option (VectorAlphaNoise ℝ) :=
  if l.noiseParams.scaleNoise = 0 then l.bfn else l.bfn.map fun b => b.tickVector.2

/-- helper -/
theorem oneF_next {l : Layer ℝ} {w : CVec ℝ} {l' : Layer ℝ} (h : l.oneFVector = .ok w l') :
    l'.bfn = nextGen l ∧ l'.bfnCount = l.bfnCount := by
  unfold oneFVector at h
  unfold nextGen
  by_cases hs : l.noiseParams.scaleNoise = 0
  · rw [if_pos (by simp [hs])] at h
    simp only [Out.ok, Out.mk.injEq, Except.ok.injEq] at h
    rw [if_pos hs, ← h.2]
    exact ⟨rfl, rfl⟩
  · rw [if_neg (by simp [hs])] at h
    rw [if_neg hs]
    cases hb : l.bfn with
    | none => rw [hb] at h; simp [Out.ok, Out.fail] at h
    | some b =>
      rw [hb] at h
      simp only [Out.ok, Out.mk.injEq, Except.ok.injEq] at h
      rw [← h.2]
      exact ⟨rfl, rfl⟩

/-- helper -/
theorem euler_next {ms : List (CVec ℝ)} {t dt : ℝ} {i : Nat} {l l' : Layer ℝ} {v : CVec ℝ} (h : eulerHeunLayer ms t dt i l = .ok v l') :
    l'.bfn = nextGen l ∧ l'.bfnCount = l.bfnCount := by
  unfold eulerHeunLayer at h
  obtain ⟨w1, l1, h1, h⟩ := Out.bind_eq_ok h
  obtain ⟨w2, l2, h2, h⟩ := Out.bind_eq_ok h
  obtain ⟨f, l3, h3, h⟩ := Out.bind_eq_ok h
  obtain ⟨-, s1⟩ := langevin_ok h1
  obtain ⟨e1, e2⟩ := oneF_next h2
  obtain ⟨-, -, s3, -, -⟩ := llg_rec _ _ _ _ _ h3
  simp only [Out.ok, Out.mk.injEq, Except.ok.injEq] at h
  rw [← h.2, s3]
  refine ⟨e1.trans ?_, e2.trans ?_⟩ <;> rw [s1] <;> rfl

/-- helper -/
theorem predict_next {ms : List (CVec ℝ)} {t dt : ℝ} {i : Nat} {l l' : Layer ℝ} {v : HeunStage ℝ} (h : heunPredict ms t dt i l = .ok v l') :
    l'.bfn = nextGen l ∧ l'.bfnCount = l.bfnCount := by
  unfold heunPredict at h
  obtain ⟨f, l3, h3, h⟩ := Out.bind_eq_ok h
  obtain ⟨w1, l1, h1, h⟩ := Out.bind_eq_ok h
  obtain ⟨w2, l2, h2, h⟩ := Out.bind_eq_ok h
  obtain ⟨-, -, s3, -, -⟩ := llg_rec _ _ _ _ _ h3
  obtain ⟨-, s1⟩ := langevin_ok h1
  obtain ⟨e1, e2⟩ := oneF_next h2
  simp only [Out.ok, Out.mk.injEq, Except.ok.injEq] at h
  rw [← h.2]
  refine ⟨e1.trans ?_, e2.trans ?_⟩ <;> rw [s1, s3] <;> rfl

/-- helper: one step of a stochastic solver draws one sample of every generator -/
theorem step_next {r : Runner} (hr : Stochastic r) {j k : Junction ℝ} {t dt : ℝ} (h : j.runStep r t dt = .ok () k) {q : Nat} {l : Layer ℝ}
    (hl : j.layers[q]? = some l) : ∃ l', k.layers[q]? = some l' ∧ l'.bfn = nextGen l ∧ l'.bfnCount = l.bfnCount := by
  rcases hr with rfl | rfl
  · unfold runStep heunSolverStep at h
    dsimp only at h
    rcases ht : Out.traverse (heunPredict (j.layers.map Layer.mag) t dt) 0 j.layers with ⟨_ | stages, ls⟩
    · rw [ht] at h; simp [Out.ok, Out.fail] at h
    rw [ht] at h
    dsimp only at h
    rcases hu : Out.traverse (heunCorrect stages t dt) 0 ls with ⟨_ | _, ls2⟩
    · rw [hu] at h; simp [Out.ok, Out.fail] at h
    rw [hu] at h
    simp only [Out.ok, Out.mk.injEq, true_and] at h
    obtain ⟨-, -, h3⟩ := Out.traverse_ok _ (bs := stages) (as' := ls) (by rw [ht]; rfl)
    obtain ⟨-, -, h4⟩ := Out.traverse_ok _ (bs := _) (as' := ls2) (by rw [hu]; rfl)
    obtain ⟨v, y, hv, hy, hf⟩ := h3 q l hl
    obtain ⟨_, z, -, hz, hc⟩ := h4 q y hy
    rw [Nat.zero_add] at hf hc
    obtain ⟨p1, p2⟩ := predict_next hf
    unfold heunCorrect at hc
    rw [hv] at hc
    dsimp only at hc
    obtain ⟨f, l1, h1, hc⟩ := Out.bind_eq_ok hc
    obtain ⟨-, -, s1, -, -⟩ := llg_rec _ _ _ _ _ h1
    simp only [Out.ok, Out.mk.injEq, true_and] at hc
    exact ⟨z, by rw [← h]; exact hz, by rw [← hc, s1]; exact p1, by rw [← hc, s1]; exact p2⟩
  · unfold runStep eulerHeunSolverStep at h
    dsimp only at h
    rcases hs : Out.traverse (eulerHeunLayer (j.layers.map Layer.mag) t dt) 0 j.layers with ⟨_ | ms, ls⟩
    · rw [hs] at h; simp [Out.ok, Out.fail] at h
    rw [hs] at h
    simp only [Out.ok, Out.mk.injEq, true_and] at h
    obtain ⟨-, -, h3⟩ := Out.traverse_ok _ hs
    obtain ⟨m, l', hm, hl', hst⟩ := h3 q l hl
    obtain ⟨e1, e2⟩ := euler_next hst
    exact ⟨l'.setMag m.normalize, by rw [← h]; exact store_mag _ _ _ _ _ hl' hm, e1, e2⟩

/-- helper: after `i` steps the generator has been called `i` times -/
theorem steps_next {r : Runner} (hr : Stochastic r) {dt : ℝ} {i : Nat} {j p : Junction ℝ} (h : steps r dt 0 i j = .ok () p) {q : Nat}
    {l : Layer ℝ} (hl : j.layers[q]? = some l) {b : VectorAlphaNoise ℝ} (hb : l.bfn = some b) (hs : l.noiseParams.scaleNoise ≠ 0) :
    ∃ l', p.layers[q]? = some l' ∧ Same l l' ∧ l'.bfn = some (after VectorAlphaNoise.tickVector b i) ∧ l'.bfnCount = l.bfnCount := by
  rw [steps_eq_evolve] at h
  induction i generalizing p with
  | zero =>
    simp only [evolve, Out.ok, Out.mk.injEq, true_and] at h
    subst h
    exact ⟨l, hl, .refl _, hb, rfl⟩
  | succ i ih =>
    rw [evolve_add] at h
    obtain ⟨⟨⟩, a, ha, h⟩ := Out.bind_eq_ok h
    rw [Nat.zero_add] at h
    unfold evolve at h
    obtain ⟨⟨⟩, c, hc, h⟩ := Out.bind_eq_ok h
    simp only [evolve, Out.ok, Out.mk.injEq, true_and] at h
    subst h
    obtain ⟨l1, h1, h2, h3, h4⟩ := ih ha
    have hsm := runStep_same a r (Scalar.lit (i : ℚ) * dt) dt
    rw [hc] at hsm
    obtain ⟨l2, g1, g2⟩ := hsm.getElem?_some h1
    obtain ⟨l3, e1, e2, e3⟩ := step_next hr hc h1
    have : some l3 = some l2 := by rw [← e1, ← g1]; rfl
    cases this
    refine ⟨_, e1, h2.trans g2, ?_, e3.trans h4⟩
    have hs1 : l1.noiseParams.scaleNoise ≠ 0 := by obtain ⟨_, _, _, _, _, rfl⟩ := h2; exact hs
    rw [e2, nextGen, if_neg hs1, h3]
    rfl

/-- helper: the samples of a generator, before its buffer is used up -/
theorem gen_output {n : Nat} {scale : ℝ} {axis : Axis} {s : Axis → Nat → Nat → ℝ} {b : VectorAlphaNoise ℝ}
    (h : VectorAlphaNoise.mk' n scale axis (s .xaxis) (s .yaxis) (s .zaxis) = .ok b) {i : Nat} (hi : i < n) :
    output VectorAlphaNoise.tickVector b i = colouredField scale axis (fun a => s a 0) i := by
  have hd : i / n = 0 := Nat.div_eq_of_lt hi
  have hm : i % n = i := Nat.mod_eq_of_lt hi
  unfold colouredField
  cases axis with
  | xaxis => rw [(VectorAlphaNoise.C47_one_axis i).1 b h, hd, hm, mul_comm]
  | yaxis => rw [(VectorAlphaNoise.C47_one_axis i).2.1 b h, hd, hm, mul_comm]
  | zaxis => rw [(VectorAlphaNoise.C47_one_axis i).2.2 b h, hd, hm, mul_comm]
  | none => rw [VectorAlphaNoise.C47_axis_none] at h; simp at h
  | all =>
    obtain ⟨h1, h2⟩ := VectorAlphaNoise.C47_all_axes h i
    rw [hd, hm] at h1 h2
    dsimp only
    by_cases hz : (⟨s .xaxis 0 i, s .yaxis 0 i, s .zaxis 0 i⟩ : CVec ℝ) = .zero
    · rw [h1 hz]
      obtain ⟨a, c, d⟩ := (CVec.eq_zero_iff _).1 hz
      simp only at a c d
      rw [a, c, d]
      ext <;> simp [smul]
    · rw [(h2 hz).2, mul_smul', CVec.length_eq]
      congr 2

/-- helper: the layer of a junction whose noise has been prepared for `n` steps -/
theorem prepared {j j1 : Junction ℝ} {mode m : SolverMode} {n : Nat} {r : Runner} (h : j.getSolver mode n = .ok (r, m) j1) {q : Nat} {l : Layer ℝ}
    (hl : j.layers[q]? = some l) (hs : l.noiseParams.scaleNoise ≠ 0) : Stochastic r ∧ ∃ l1 b, j1.layers[q]? = some l1 ∧ Same l l1 ∧
      l1.bfn = some b ∧ l1.bfnCount = l.bfnCount + 1 ∧
      VectorAlphaNoise.mk' n l.noiseParams.scaleNoise l.noiseParams.axis (l.alphaSrc l.bfnCount .xaxis) (l.alphaSrc l.bfnCount .yaxis)
        (l.alphaSrc l.bfnCount .zaxis) = .ok b := by
  have hex : ∃ l ∈ j.layers, Noisy l := ⟨l, List.mem_of_getElem? hl, .inr (by simp [hs])⟩
  have hst : Stochastic r := by
    have := (C31_integrator h).1
    cases r <;> cases mode <;> simp [Integrator.expected, Runner.integrator, Stochastic, hex] at this ⊢
  refine ⟨hst, ?_⟩
  unfold getSolver at h
  rcases hg : solverLoop n mode j.layers with ⟨_ | m', ls⟩
  · rw [hg] at h; simp [Out.ok, Out.fail] at h
  rw [hg] at h
  simp only [Out.ok, Out.mk.injEq, Except.ok.injEq, Prod.mk.injEq] at h
  obtain ⟨-, rfl⟩ := h
  obtain ⟨-, hF⟩ := solverLoop_ok n hg
  obtain ⟨l1, h1, hp⟩ := hF.getElem?_some hl
  rcases hp with ⟨e, -⟩ | ⟨-, u, hc⟩
  · simp [hs] at e
  · unfold createBufferedAlphaNoise at hc
    split at hc
    · simp [Out.ok, Out.fail] at hc
    · rcases hb : (VectorAlphaNoise.mk' n l.noiseParams.scaleNoise l.noiseParams.axis (l.alphaSrc l.bfnCount .xaxis) (l.alphaSrc l.bfnCount .yaxis)
        (l.alphaSrc l.bfnCount .zaxis)) with e | b
      · rw [hb] at hc; simp [Out.ok, Out.fail] at hc
      · rw [hb] at hc
        simp only [Out.ok, Out.mk.injEq, true_and] at hc
        subst hc
        exact ⟨_, b, h1, ⟨l.mag, l.cache, l.gpos, _, _, rfl⟩, rfl, rfl, rfl⟩

/-- C127. In a run of `n` steps the coloured field of step `i` of a layer is sample number `i` of the noise generated for this run, of the strength
and along the axis requested: no sample is used twice and none is left out, with either of the two stochastic solvers. -/
theorem C127_samples {j j1 p : Junction ℝ} {mode m : SolverMode} {n i : Nat} {r : Runner} {dt : ℝ} (hg : j.getSolver mode n = .ok (r, m) j1)
    (hp : steps r dt 0 i j1 = .ok () p) (hi : i < n) {q : Nat} {l : Layer ℝ} (hl : j.layers[q]? = some l) (hs : l.noiseParams.scaleNoise ≠ 0) :
    ∃ l', p.layers[q]? = some l' ∧ Same l l' ∧
      pinkField l' = colouredField l.noiseParams.scaleNoise l.noiseParams.axis (fun a => l.alphaSrc l.bfnCount a 0) i := by
  obtain ⟨hr, l1, b, h1, h2, h3, -, h5⟩ := prepared hg hl hs
  have hs1 : l1.noiseParams.scaleNoise ≠ 0 := by obtain ⟨_, _, _, _, _, rfl⟩ := h2; exact hs
  obtain ⟨l', e1, e2, e3, -⟩ := steps_next hr hp h1 h3 hs1
  refine ⟨l', e1, h2.trans e2, ?_⟩
  have hs2 : l'.noiseParams.scaleNoise ≠ 0 := by obtain ⟨_, _, _, _, _, rfl⟩ := e2; exact hs1
  unfold pinkField
  rw [if_neg hs2, e3]
  exact gen_output h5 hi

/-- C127. Every run generates its noise anew: after a run the next generator of the layer is the following one, so no noise is replayed. -/
theorem C127_renewed {j j1 p : Junction ℝ} {mode m : SolverMode} {n i : Nat} {r : Runner} {dt : ℝ} (hg : j.getSolver mode n = .ok (r, m) j1)
    (hp : steps r dt 0 i j1 = .ok () p) {q : Nat} {l : Layer ℝ} (hl : j.layers[q]? = some l) (hs : l.noiseParams.scaleNoise ≠ 0) :
    ∃ l', p.layers[q]? = some l' ∧ l'.alphaSrc l'.bfnCount = l.alphaSrc (l.bfnCount + 1) := by
  obtain ⟨hr, l1, b, h1, h2, h3, h4, -⟩ := prepared hg hl hs
  have hs1 : l1.noiseParams.scaleNoise ≠ 0 := by obtain ⟨_, _, _, _, _, rfl⟩ := h2; exact hs
  obtain ⟨l', e1, e2, -, e4⟩ := steps_next hr hp h1 h3 hs1
  refine ⟨l', e1, ?_⟩
  rw [e4, h4]
  obtain ⟨_, _, _, _, _, rfl⟩ := h2
  obtain ⟨_, _, _, _, _, rfl⟩ := e2
  rfl

/-- C127. A request is refused, and changes nothing, exactly when the exponent is not between 0 and 2. -/
theorem C127_refused (l : Layer ℝ) (alpha sd scale : ℝ) (axis : Axis) :
    (l.setAlphaNoise alpha sd scale axis = .fail .alphaRange l ↔ ¬ (0 ≤ alpha ∧ alpha ≤ 2)) ∧
    ((0 ≤ alpha ∧ alpha ≤ 2) ↔ ∃ l', l.setAlphaNoise alpha sd scale axis = .ok () l') := by
  unfold setAlphaNoise
  split
  · next hc =>
    simp only [Bool.or_eq_true, Scalar.ltb_real, Scalar.ofNat_real, Nat.cast_zero, Nat.cast_ofNat, decide_eq_true_eq] at hc
    have h : ¬ (0 ≤ alpha ∧ alpha ≤ 2) := by rintro ⟨h1, h2⟩; rcases hc with h | h <;> linarith
    exact ⟨by simp [h], by simp [h, Out.ok, Out.fail]⟩
  · next hc =>
    simp only [Bool.or_eq_true, Scalar.ltb_real, Scalar.ofNat_real, Nat.cast_zero, Nat.cast_ofNat, decide_eq_true_eq, not_or, not_lt] at hc
    exact ⟨by simp [hc, Out.ok, Out.fail], by simp [hc]⟩

/-- C127. After a request that was accepted, a run of the layer uses noise of the requested strength along the requested axis; everything the
request does not name is as before. -/
theorem C127_request {l0 l : Layer ℝ} {alpha sd scale : ℝ} {axis : Axis} (h : l0.setAlphaNoise alpha sd scale axis = .ok () l) (hs : scale ≠ 0)
    {j j1 p : Junction ℝ} {mode m : SolverMode} {n i : Nat} {r : Runner} {dt : ℝ} (hg : j.getSolver mode n = .ok (r, m) j1)
    (hp : steps r dt 0 i j1 = .ok () p) (hi : i < n) {q : Nat} (hl : j.layers[q]? = some l) :
    ∃ l', p.layers[q]? = some l' ∧ pinkField l' = colouredField scale axis (fun a => l0.alphaSrc l0.bfnCount a 0) i ∧
      l'.noiseParams.alphaNoise = alpha ∧ l'.noiseParams.stdNoise = sd ∧
      ∃ m c g b k, l' = { l0 with mag := m, cache := c, gpos := g, bfn := b, bfnCount := k, noiseParams := l'.noiseParams, pinkNoiseSet := true } := by
  unfold setAlphaNoise at h
  split at h
  · simp [Out.ok, Out.fail] at h
  simp only [Out.ok, Out.mk.injEq, true_and] at h
  subst h
  obtain ⟨l', h1, h2, h3⟩ := C127_samples hg hp hi hl hs
  refine ⟨l', h1, h3, ?_⟩
  obtain ⟨m', c', g', b', k', rfl⟩ := h2
  exact ⟨rfl, rfl, m', c', g', b', k', rfl⟩

/-! ### Such runs complete -/

/-- helper -/
def Ready (l : Layer ℝ) : Prop :=
  l.Guard ∧ (l.noiseParams.scaleNoise = 0 ∨ ∃ b, l.bfn = some b) ∧ (l.temperatureSet = true → l.cellVolume ≠ 0)

/-- helper -/
theorem pink_ok {l : Layer ℝ} (h : Ready l) : ∃ w l', l.oneFVector = .ok w l' ∧ l'.Guard := by
  unfold oneFVector
  by_cases hs : l.noiseParams.scaleNoise = 0
  · rw [if_pos (by simp [hs])]; exact ⟨_, _, rfl, h.1⟩
  · rw [if_neg (by simp [hs])]
    obtain ⟨b, hb⟩ := h.2.1.resolve_left hs
    rw [hb]
    exact ⟨_, _, rfl, h.1⟩

/-- helper -/
theorem ready_step_ok {r : Runner} (hr : Stochastic r) (j : Junction ℝ) (h : ∀ l ∈ j.layers, Ready l) (t dt : ℝ) :
    ∃ k, j.runStep r t dt = .ok () k := by
  rcases hr with rfl | rfl
  · unfold runStep heunSolverStep
    dsimp only
    obtain ⟨bs, as, h', hb, ha, hP⟩ := Out.traverse_exists (heunPredict (j.layers.map Layer.mag) t dt)
      (fun _ _ _ l' => l'.Guard) 0 j.layers (fun k l hl => by
        have hm := h l (List.mem_of_getElem? hl)
        obtain ⟨c, hc⟩ := l.llg_ok t l.mag (below (j.layers.map Layer.mag) (0 + k)) (above (j.layers.map Layer.mag) (0 + k)) hm.1
        unfold heunPredict
        rw [hc]
        simp only [Out.bind_ok]
        have hc' : Ready (l.setCache c) := hm
        obtain ⟨w, p, e1⟩ := thermal_ok hc'.2.2 t
        rw [e1]; simp only [Out.bind_ok]
        obtain ⟨w2, l2, e2, hG⟩ := pink_ok (show Ready ((l.setCache c).setGpos p) from hm)
        rw [e2]; simp only [Out.bind_ok]
        exact ⟨_, _, rfl, hG⟩)
    rw [h']
    dsimp only [Out.ok]
    obtain ⟨bs', as', h', -⟩ := Out.traverse_exists (heunCorrect bs t dt) (fun _ _ _ _ => True) 0 as (fun k l hl => by
        have hk : k < as.length := (List.getElem?_eq_some_iff.1 hl).1
        have hkb : k < bs.length := by omega
        have hkj : k < j.layers.length := by omega
        have hG := hP k _ _ l (List.getElem?_eq_getElem hkj) (List.getElem?_eq_getElem hkb) hl
        unfold heunCorrect
        rw [Nat.zero_add, List.getElem?_eq_getElem hkb]
        dsimp only
        obtain ⟨c, hc⟩ := l.llg_ok (t + dt) bs[k].mNext (below (bs.map HeunStage.mNext) k) (above (bs.map HeunStage.mNext) k) hG
        rw [hc]
        exact ⟨_, _, rfl, trivial⟩)
    rw [h']; exact ⟨_, rfl⟩
  · unfold runStep eulerHeunSolverStep
    dsimp only
    obtain ⟨bs, as, h', hb, ha, hP⟩ := Out.traverse_exists (eulerHeunLayer (j.layers.map Layer.mag) t dt)
      (fun _ _ _ _ => True) 0 j.layers (fun k l hl => by
        have hm := h l (List.mem_of_getElem? hl)
        obtain ⟨w, p, e1⟩ := thermal_ok hm.2.2 t
        obtain ⟨w2, l2, e2, hG⟩ := pink_ok (show Ready (l.setGpos p) from hm)
        obtain ⟨c, hc⟩ := l2.llg_ok t l2.mag (below (j.layers.map Layer.mag) (0 + k)) (above (j.layers.map Layer.mag) (0 + k)) hG
        unfold eulerHeunLayer
        rw [e1]; simp only [Out.bind_ok]
        rw [e2]; simp only [Out.bind_ok]
        rw [hc]; simp only [Out.bind_ok]
        exact ⟨_, _, rfl, trivial⟩)
    rw [h']; exact ⟨_, rfl⟩

/-- helper -/
theorem ready_evolve_ok {r : Runner} (hr : Stochastic r) (dt : ℝ) (n i : Nat) (j : Junction ℝ) (h : ∀ l ∈ j.layers, Ready l) :
    ∃ k, evolve r dt i n j = .ok () k := by
  induction n generalizing i j with
  | zero => exact ⟨j, rfl⟩
  | succ n ih =>
    obtain ⟨k, hk⟩ := ready_step_ok hr j h (Scalar.lit (i : ℚ) * dt) dt
    have hs := runStep_same j r (Scalar.lit (i : ℚ) * dt) dt
    rw [hk] at hs
    have hR : ∀ l ∈ k.layers, Ready l := by
      intro l hl
      obtain ⟨q, hq, rfl⟩ := List.mem_iff_getElem.1 hl
      have hlen : j.layers.length = k.layers.length := hs.length_eq
      have hqj : q < j.layers.length := by omega
      obtain ⟨l', g1, g2⟩ := hs.getElem?_some (List.getElem?_eq_getElem hqj)
      obtain ⟨l'', e1, e2, -⟩ := step_next hr hk (List.getElem?_eq_getElem hqj)
      have : some l'' = some l' := by rw [← e1, ← g1]; rfl
      cases this
      have : k.layers[q] = l' := by
        rw [List.getElem?_eq_getElem hq] at e1; exact Option.some.inj e1
      rw [this]
      obtain ⟨a, b, c⟩ := h _ (List.getElem_mem hqj)
      have hb' : j.layers[q].noiseParams.scaleNoise = 0 ∨ ∃ b, l'.bfn = some b := by
        rcases b with b | ⟨b, hb⟩
        · exact .inl b
        · refine .inr ?_
          rw [e2, nextGen, hb]
          split <;> exact ⟨_, rfl⟩
      obtain ⟨_, _, _, _, _, e⟩ := g2
      rw [e] at hb' ⊢
      exact ⟨a, hb', c⟩
    obtain ⟨k2, hk2⟩ := ih (i + 1) k hR
    exact ⟨k2, by unfold evolve; rw [hk, Out.bind_ok, hk2]⟩

/-- helper -/
theorem create_ok {l : Layer ℝ} {n : Nat} (hn : 0 < n) (ha : 0 ≤ l.noiseParams.alphaNoise) (hx : l.noiseParams.axis ≠ .none) :
    ∃ b, l.createBufferedAlphaNoise n = .ok () { l with bfn := some b, bfnCount := l.bfnCount + 1 } := by
  unfold createBufferedAlphaNoise
  rw [if_neg (by simpa using ha)]
  have : ∃ b, VectorAlphaNoise.mk' n l.noiseParams.scaleNoise l.noiseParams.axis (l.alphaSrc l.bfnCount .xaxis) (l.alphaSrc l.bfnCount .yaxis)
        (l.alphaSrc l.bfnCount .zaxis) = .ok b := by
    cases hA : l.noiseParams.axis with
    | none => exact absurd hA hx
    | _ => simp [VectorAlphaNoise.mk', BufferedAlphaNoise.mk', hn.ne', bind, Except.bind]
  obtain ⟨b, hb⟩ := this
  rw [hb]
  exact ⟨b, rfl⟩

/-- helper -/
theorem solverLoop_coloured {n : Nat} (hn : 0 < n) (mode : SolverMode) (ls : List (Layer ℝ)) (h : ∀ l ∈ ls, Generable l) :
    ∃ m ls', solverLoop n mode ls = .ok m ls' := by
  induction ls generalizing mode with
  | nil => exact ⟨_, _, rfl⟩
  | cons l ls ih =>
    have ih' := fun mode => ih mode fun l hl => h l (List.mem_cons_of_mem _ hl)
    unfold solverLoop
    dsimp only
    by_cases hs : l.noiseParams.scaleNoise = 0
    · obtain ⟨m, ls', e⟩ := ih' (if l.temperatureSet then noisyMode mode else mode)
      rw [if_pos (by simp [hs]), e]
      exact ⟨_, _, rfl⟩
    · rw [if_neg (by simp [hs])]
      obtain ⟨ha, hx⟩ := (h l (by simp)).resolve_left hs
      obtain ⟨b, hb⟩ := create_ok hn ha hx
      rw [hb]
      obtain ⟨m, ls', e⟩ := ih' (noisyMode (if l.temperatureSet then noisyMode mode else mode))
      dsimp only [Out.ok]
      rw [e]
      exact ⟨_, _, rfl⟩

/-- C127. A run of at least one step of a junction with `Ms·thickness ≠ 0`, a volume where there is a temperature, and coloured noise only along
a proper axis with a proper exponent completes with every solver. -/
theorem C127_completes (j : Junction ℝ) (hr : Reachable j) (hg : ∀ l ∈ j.layers, l.Ms * l.thickness ≠ 0)
    (hn : ∀ l ∈ j.layers, Generable l) (hv : ∀ l ∈ j.layers, l.temperatureSet = true → l.cellVolume ≠ 0)
    (total dt wf : ℝ) (en : Bool) (mode : SolverMode) (hdt : 0 < dt) (ht : dt ≤ total)
    (hT : total / dt < 2 ^ 32) (hle : dt ≤ wf) (hW : wf / dt < 2 ^ 32) :
    ∃ k, j.runSimulation total dt wf en mode = .ok () k := by
  by_cases hq : ∀ l ∈ j.layers, ¬ Noisy l
  · exact C27_completes j hr hg hq total dt wf en mode hdt (hdt.le.trans ht) hT hle hW
  have hfl : 1 ≤ ⌊wf / dt⌋₊ := by rw [Nat.one_le_floor_iff]; rwa [one_le_div hdt]
  have hft : 0 < ⌊total / dt⌋₊ := by
    have : 1 ≤ ⌊total / dt⌋₊ := by rw [Nat.one_le_floor_iff]; rwa [one_le_div hdt]
    omega
  obtain ⟨m, ls, hm⟩ := solverLoop_coloured hft mode j.layers hn
  have hgs : j.getSolver mode ⌊total / dt⌋₊ = .ok (pickRunner j.layerNo m, m) { j with layers := ls } := by
    unfold getSolver; rw [hm]; rfl
  have hst : Stochastic (pickRunner j.layerNo m) := by
    have := (C31_integrator hgs).1
    have hex : ∃ l ∈ j.layers, Noisy l := by push Not at hq; exact hq
    generalize pickRunner j.layerNo m = r at this
    cases r <;> cases mode <;> simp [Integrator.expected, Runner.integrator, Stochastic, hex] at this ⊢
  obtain ⟨-, hF⟩ := solverLoop_ok _ hm
  have hR : ∀ l ∈ ls, Ready l := by
    intro l' hl'
    obtain ⟨l, hl, hp⟩ : ∃ l ∈ j.layers, Prepared ⌊total / dt⌋₊ l l' := by
      obtain ⟨q, hq⟩ := List.mem_iff_getElem?.1 hl'
      obtain ⟨l, h1, h2⟩ := hF.flip.getElem?_some hq
      exact ⟨l, List.mem_of_getElem? h1, h2⟩
    have hG : l.Guard := by simpa [Guard] using hg l hl
    rcases hp with ⟨e, rfl⟩ | ⟨e, u, hc⟩
    · exact ⟨hG, .inl (by simpa using e), hv _ hl⟩
    · have hs : l.noiseParams.scaleNoise ≠ 0 := by simpa using e
      obtain ⟨ha, hx⟩ := (hn l hl).resolve_left hs
      obtain ⟨b, hb⟩ := create_ok hft ha hx
      rw [hb] at hc
      simp only [Out.ok, Out.mk.injEq, Except.ok.injEq] at hc
      rw [← hc.2]
      exact ⟨hG, .inr ⟨b, rfl⟩, hv l hl⟩
  unfold runSimulation
  rw [if_neg (by simpa using hle), toUInt_floor _ (div_nonneg (hdt.le.trans ht) hdt.le) (by norm_num at hT ⊢; exact hT),
    toUInt_floor _ (div_nonneg (hdt.le.trans hle) hdt.le) (by norm_num at hW ⊢; exact hW)]
  dsimp only
  rw [hgs]
  obtain ⟨k, hk⟩ := ready_evolve_ok hst dt ⌊total / dt⌋₊ 0 { j with layers := ls } hR
  obtain ⟨k', hk', -⟩ := evolve_runLoop _ dt ⌊wf / dt⌋₊ en hk rfl (by omega)
    (mrOk_withLayers (Reachable_inv hr).1 hF.length_eq.symm)
  exact ⟨k', hk'⟩

/-- A layer with coloured noise of strength 2 along z; sample `i` of every generator is `i + 1`. -/
noncomputable def colouredLayer : Layer ℝ :=
  { quietLayer with
    noiseParams := ⟨1, 2, 1, .zaxis⟩
    pinkNoiseSet := true
    alphaSrc := fun _ _ _ i => i + 1 }

/-- A junction of that layer. -/
noncomputable def colouredJ : Junction ℝ := { demoJ with layers := [colouredLayer] }

theorem colouredJ_reachable : Reachable colouredJ := ⟨colouredJ, [], .inl ⟨[colouredLayer], by simp [plain, colouredJ, demoJ]⟩, rfl⟩

/-- helper -/
theorem colouredLayer_generable : Generable colouredLayer := .inr ⟨by simp [colouredLayer], by simp [colouredLayer]⟩

/-- helper -/
theorem colouredLayer_strength : colouredLayer.noiseParams.scaleNoise ≠ 0 := by simp [colouredLayer]

/-- helper -/
theorem colouredLayer_ms : colouredLayer.Ms * colouredLayer.thickness ≠ 0 := by simp [colouredLayer, quietLayer, plainOf, Layer.demo]

/-- The layer is what a request for such noise gives. -/
example : ({ colouredLayer with noiseParams := ⟨0, 0, 0, .all⟩ } : Layer ℝ).setAlphaNoise 1 1 2 .zaxis = .ok () colouredLayer := by
  unfold setAlphaNoise
  rw [if_neg (by simp)]
  rfl

/-- Runs of it complete. -/
example : ∃ k, colouredJ.runSimulation 3 1 1 false .RK4 = .ok () k :=
  C127_completes colouredJ colouredJ_reachable (by simpa [colouredJ] using colouredLayer_ms) (by simpa [colouredJ] using colouredLayer_generable)
    (by simp [colouredJ, colouredLayer, quietLayer, plainOf, Layer.demo]) 3 1 1 false .RK4 (by norm_num) (by norm_num) (by norm_num) (by norm_num)
    (by norm_num)

/-- The second step of a run of three has the field `2 · 2` along z, whatever solver was asked for. -/
example (mode : SolverMode) : ∃ r m j1 p l', colouredJ.getSolver mode 3 = .ok (r, m) j1 ∧ steps r 1 0 1 j1 = .ok () p ∧ p.layers[0]? = some l' ∧
    pinkField l' = ⟨0, 0, 4⟩ := by
  obtain ⟨m, ls, hm⟩ := solverLoop_coloured (n := 3) (by norm_num) mode colouredJ.layers (by simpa [colouredJ] using colouredLayer_generable)
  have hg : colouredJ.getSolver mode 3 = .ok (pickRunner colouredJ.layerNo m, m) { colouredJ with layers := ls } := by
    unfold getSolver; rw [hm]; rfl
  obtain ⟨hr, l1, b, h1, h2, h3, -, -⟩ := prepared hg (q := 0) (l := colouredLayer) rfl colouredLayer_strength
  have hlen := (solverLoop_ok _ hm).2.length_eq
  have hls : ls = [l1] := by
    obtain ⟨x, hx⟩ := List.length_eq_one_iff.1 (show ls.length = 1 from hlen.symm)
    have h1' : ls[0]? = some l1 := h1
    rw [hx] at h1' ⊢
    rw [Option.some.inj h1']
  have hG : Ready l1 := by
    refine ⟨?_, .inr ⟨b, h3⟩, ?_⟩ <;> obtain ⟨_, _, _, _, _, rfl⟩ := h2
    · simpa [Guard] using colouredLayer_ms
    · simp [colouredLayer, quietLayer, plainOf, Layer.demo]
  obtain ⟨p, hp⟩ := ready_evolve_ok hr 1 1 0 { colouredJ with layers := ls } (by rw [hls]; simpa using hG)
  rw [← steps_eq_evolve] at hp
  obtain ⟨l', e1, -, e3⟩ := C127_samples hg hp (by norm_num) (q := 0) (l := colouredLayer) rfl colouredLayer_strength
  refine ⟨_, _, _, p, l', hg, hp, e1, ?_⟩
  rw [e3]
  simp [colouredField, colouredLayer]
  norm_num

/-- C127, "every run" refuted: a run of no steps, which completes without noise, writes outside its buffer when a layer has coloured noise. -/
theorem C127_empty_refuted : ∃ j : Junction ℝ, Reachable j ∧ (∀ l ∈ j.layers, l.Ms * l.thickness ≠ 0 ∧ Generable l) ∧
    ∃ k, j.runSimulation 0 1 1 false .RK4 = .fail .ub k := by
  refine ⟨colouredJ, colouredJ_reachable, fun l hl => ?_, ?_⟩
  · rw [List.mem_singleton.1 hl]; exact ⟨colouredLayer_ms, colouredLayer_generable⟩
  unfold runSimulation
  rw [if_neg (by simp), toUInt_floor _ (by norm_num) (by norm_num), toUInt_floor _ (by norm_num) (by norm_num)]
  dsimp only
  have : colouredJ.getSolver .RK4 ⌊(0 : ℝ) / 1⌋₊ = .fail .ub colouredJ := by
    unfold getSolver
    have : solverLoop ⌊(0 : ℝ) / 1⌋₊ .RK4 colouredJ.layers = .fail .ub [colouredLayer] := by
      rw [zero_div, Nat.floor_zero, show colouredJ.layers = [colouredLayer] from rfl]
      unfold solverLoop
      dsimp only
      rw [if_neg (by simp [colouredLayer])]
      unfold createBufferedAlphaNoise
      rw [if_neg (by simp [colouredLayer])]
      rfl
    rw [this]
    rfl
  rw [this]
  exact ⟨_, rfl⟩

end Junction
