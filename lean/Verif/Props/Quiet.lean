import Verif.Lemmas.Outcome
import Verif.Spec.Noise
import Verif.Props.Repeat

/-! # C32: noise-free junctions are deterministic -/

set_option linter.unusedSectionVars false

namespace Layer
variable {T : Type} [Scalar T]

/-- helper: the members that only noise reads -/
structure NoiseBox (T : Type) where
  d : ScalarDriver T
  ns : Bool
  pink : Bool
  b : Option (VectorAlphaNoise T)
  g : Nat → T
  p : Nat
  a : Nat → Axis → Nat → Nat → T
  n : Nat

/-- helper -/
def noise (l : Layer T) (x : NoiseBox T) : Layer T :=
  { l with temperatureDriver := x.d, nonStochasticTempSet := x.ns, pinkNoiseSet := x.pink, bfn := x.b, gauss := x.g, gpos := x.p,
           alphaSrc := x.a, bfnCount := x.n }

/-- helper -/
def box (l : Layer T) : NoiseBox T :=
  ⟨l.temperatureDriver, l.nonStochasticTempSet, l.pinkNoiseSet, l.bfn, l.gauss, l.gpos, l.alphaSrc, l.bfnCount⟩

/-- helper -/
theorem calculateIEC_noise (l : Layer T) (x : NoiseBox T) (t : T) (m b a : CVec T) :
    (l.noise x).calculateIEC t m b a = ⟨(l.calculateIEC t m b a).res, (l.calculateIEC t m b a).st.noise x⟩ := by
  have e : ∀ J J2 v c, (l.noise x).iec J J2 v c = l.iec J J2 v c := fun _ _ _ _ => rfl
  have f1 : (l.noise x).IECDriverBottom = l.IECDriverBottom := rfl
  have f2 : (l.noise x).IECDriverTop = l.IECDriverTop := rfl
  have f3 : (l.noise x).IECQuadDriverBottom = l.IECQuadDriverBottom := rfl
  have f4 : (l.noise x).IECQuadDriverTop = l.IECQuadDriverTop := rfl
  unfold calculateIEC
  dsimp only
  rw [f1, f2, f3, f4, e, e]
  generalize l.iec (l.IECDriverBottom.value t) _ m b = u
  generalize l.iec (l.IECDriverTop.value t) _ m a = v
  cases u <;> cases v <;> rfl

/-- helper -/
theorem setCache_noise (l : Layer T) (x : NoiseBox T) (c : LayerLog T) : (l.noise x).setCache c = (l.setCache c).noise x := rfl

/-- helper: the field does not read those members -/
theorem heffD_noise (l : Layer T) (x : NoiseBox T) (t : T) (m b a d f : CVec T) :
    (l.noise x).calculateHeffDipoleInjection t m b a d f =
      ⟨(l.calculateHeffDipoleInjection t m b a d f).res, (l.calculateHeffDipoleInjection t m b a d f).st.noise x⟩ := by
  unfold calculateHeffDipoleInjection
  dsimp only
  have f1 : (l.noise x).externalFieldDriver = l.externalFieldDriver := rfl
  have f2 : (l.noise x).HoeDriver = l.HoeDriver := rfl
  have f3 : (l.noise x).demagTensor = l.demagTensor := rfl
  have f4 : (l.noise x).Ms = l.Ms := rfl
  have f5 : (l.noise x).cache = l.cache := rfl
  rw [f1, f2, f3, f4, f5, setCache_noise, calculateIEC_noise]
  generalize (l.setCache _).calculateIEC t m b a = y
  rcases y with ⟨_ | v, s⟩
  · rfl
  · simp only [Out.bind]
    have g1 : ∀ c, ((s.noise x).setCache c).calculateIDMI t b a = s.calculateIDMI t b a := fun _ => rfl
    have g2 : ∀ c, (s.setCache c).calculateIDMI t b a = s.calculateIDMI t b a := fun _ => rfl
    rw [g1, g2]
    cases s.calculateIDMI t b a with
    | error e => rfl
    | ok u => rfl

/-- helper -/
theorem solve_noise (l : Layer T) (x : NoiseBox T) (t : T) (m b a h : CVec T) :
    (l.noise x).solveLLG t m b a h = ((l.solveLLG t m b a h).1, (l.solveLLG t m b a h).2.noise x) := by
  unfold solveLLG
  by_cases h1 : l.includeSTT = true
  · rw [if_pos h1, if_pos (show (l.noise x).includeSTT = true from h1)]; rfl
  · rw [if_neg h1, if_neg (show ¬ (l.noise x).includeSTT = true from h1)]
    by_cases h2 : l.includeSOT = true
    · rw [if_pos h2, if_pos (show (l.noise x).includeSOT = true from h2)]; rfl
    · rw [if_neg h2, if_neg (show ¬ (l.noise x).includeSOT = true from h2)]; rfl

/-- helper -/
theorem llg_noise (l : Layer T) (x : NoiseBox T) (t : T) (m b a : CVec T) :
    (l.noise x).llg t m b a = ⟨(l.llg t m b a).res, (l.llg t m b a).st.noise x⟩ := by
  unfold llg calculateHeff
  dsimp only
  have f1 : (l.noise x).dipoleBottom = l.dipoleBottom := rfl
  have f2 : (l.noise x).dipoleTop = l.dipoleTop := rfl
  have f3 : (l.noise x).Ms = l.Ms := rfl
  have f4 : (l.noise x).cache = l.cache := rfl
  rw [f1, f2, f3, f4, setCache_noise, heffD_noise]
  generalize (l.setCache _).calculateHeffDipoleInjection t m b a _ _ = y
  rcases y with ⟨_ | v, s⟩
  · rfl
  · simp only [Out.bind]
    rw [solve_noise]
    rfl

/-- helper relation: two layers that noise-related members tell apart at most where they are not read -/
def Indistinct (l l' : Layer T) : Prop :=
  ∃ x : NoiseBox T, l' = l.noise x ∧
    (l.temperatureSet = true → x.d = l.temperatureDriver ∧ x.g = l.gauss ∧ x.p = l.gpos) ∧
    (Scalar.eqb l.noiseParams.scaleNoise 0 = false → x.b = l.bfn ∧ x.a = l.alphaSrc ∧ x.n = l.bfnCount)

/-- helper -/
theorem Indistinct.refl (l : Layer T) : Indistinct l l := ⟨l.box, rfl, fun _ => ⟨rfl, rfl, rfl⟩, fun _ => ⟨rfl, rfl, rfl⟩⟩

end Layer

namespace Junction
open Spec Layer
variable {T : Type} [Scalar T]

/-- helper -/
theorem llg_same_noise (l : Layer T) (t : T) (m b a : CVec T) :
    ∃ c, (l.llg t m b a).st = l.setCache c := by
  by_cases hg : l.Guard
  · obtain ⟨c, hc⟩ := l.llg_ok t m b a hg; rw [hc]; exact ⟨c, rfl⟩
  · obtain ⟨c, hc⟩ := l.llg_err t m b a hg; rw [hc]; exact ⟨c, rfl⟩

/-- helper -/
theorem indistinctSim : Sim T (Indistinct : Layer T → Layer T → Prop) Eq Eq where
  mag := by rintro l _ ⟨x, rfl, -⟩; rfl
  setMag := by rintro l _ m _ ⟨x, rfl, h1, h2⟩ rfl; exact ⟨x, rfl, h1, h2⟩
  llg := by
    rintro l _ t _ m _ b _ a _ ⟨x, rfl, h1, h2⟩ rfl rfl rfl rfl
    rw [llg_noise]
    obtain ⟨c, hc⟩ := llg_same_noise l t m b a
    generalize l.llg t m b a = y at hc
    rcases y with ⟨_ | v, s⟩ <;> dsimp only at hc <;> subst hc
    · exact .fail ⟨x, rfl, h1, h2⟩
    · exact .ok rfl ⟨x, rfl, h1, h2⟩
  langevin := by
    rintro l _ t _ ⟨x, rfl, h1, h2⟩ rfl
    unfold langevinVector
    by_cases ht : l.temperatureSet = true
    · obtain ⟨e1, e2, e3⟩ := h1 ht
      rw [if_neg (by simp [ht]), if_neg (by simp [noise, ht])]
      have hsd : (l.noise x).langevinStd t = l.langevinStd t := by
        unfold langevinStd noise; dsimp only; rw [e1]
      have hg : (l.noise x).gauss = l.gauss := e2
      have hp : (l.noise x).gpos = l.gpos := e3
      rw [hsd, hg, hp]
      cases l.langevinStd t with
      | error e => exact .fail ⟨x, rfl, h1, h2⟩
      | ok sd =>
        refine .ok rfl ⟨{ x with p := (CVec.ofStream l.gauss l.gpos).2 }, rfl, fun _ => ⟨e1, e2, rfl⟩, h2⟩
    · rw [if_pos (by simpa using ht), if_pos (by simpa [noise] using ht)]
      exact .ok rfl ⟨x, rfl, h1, h2⟩
  oneF := by
    rintro l _ ⟨x, rfl, h1, h2⟩
    unfold oneFVector
    by_cases hs : Scalar.eqb l.noiseParams.scaleNoise 0 = true
    · rw [if_pos hs, if_pos (show Scalar.eqb (l.noise x).noiseParams.scaleNoise 0 = true from hs)]
      exact .ok rfl ⟨x, rfl, h1, h2⟩
    · obtain ⟨e1, e2, e3⟩ := h2 (by simpa using hs)
      rw [if_neg hs, if_neg (show ¬ Scalar.eqb (l.noise x).noiseParams.scaleNoise 0 = true from hs)]
      have hb : (l.noise x).bfn = l.bfn := e1
      rw [hb]
      rcases hbf : l.bfn with _ | b
      · exact .fail ⟨x, rfl, h1, h2⟩
      · exact .ok rfl ⟨{ x with b := some b.tickVector.2 }, rfl, h1, fun _ => ⟨rfl, e2, e3⟩⟩
  stoch := by rintro l _ m _ w _ ⟨x, rfl, -⟩ rfl rfl; rfl
  zero := rfl
  add h h' := by rw [h, h']
  mul s h := by rw [h]
  lmul s h := by rw [h]
  div6 s h := by rw [h]
  nan h := by rw [h]
  time s h := by rw [h]

/-- helper -/
theorem indistinct_create {l l' : Layer T} (n : Nat) (h : Indistinct l l') (hs : Scalar.eqb l.noiseParams.scaleNoise 0 = false) :
    OutRel (fun _ _ => True) Indistinct (l.createBufferedAlphaNoise n) (l'.createBufferedAlphaNoise n) := by
  obtain ⟨x, rfl, h1, h2⟩ := h
  obtain ⟨e1, e2, e3⟩ := h2 hs
  unfold createBufferedAlphaNoise
  have ha : (l.noise x).alphaSrc = l.alphaSrc := e2
  have hn : (l.noise x).bfnCount = l.bfnCount := e3
  have hp : (l.noise x).noiseParams = l.noiseParams := rfl
  rw [ha, hn, hp]
  split
  · exact .fail ⟨x, rfl, h1, h2⟩
  · split
    · exact .fail ⟨x, rfl, h1, h2⟩
    · rename_i b _
      exact .ok trivial ⟨{ x with b := some b, a := l.alphaSrc, n := l.bfnCount + 1 }, by rw [← ha]; rfl, h1,
        fun _ => ⟨rfl, rfl, rfl⟩⟩

/-- helper -/
theorem indistinct_outcome {j : Junction T} {ls : List (Layer T)} (h : List.Forall₂ Indistinct j.layers ls) (total dt wf : T)
    (en : Bool) (mode : SolverMode) :
    SameOutcome (j.runSimulation total dt wf en mode) ((j.withLayers ls).runSimulation total dt wf en mode) := by
  have := indistinctSim.outcome (en := en)
    (by rintro l _ ⟨x, rfl, -⟩; rfl) (by rintro l _ ⟨x, rfl, -⟩; exact ⟨rfl, rfl⟩) (by rintro l _ ⟨x, rfl, -⟩; rfl)
    (by rintro l _ ⟨x, rfl, -⟩; rfl) (fun l l' n h hs => indistinct_create n h hs)
    (k := j) (k' := j.withLayers ls) ⟨h, rfl⟩ total dt wf mode
  generalize j.runSimulation total dt wf en mode = a at this
  generalize (j.withLayers ls).runSimulation total dt wf en mode = b at this
  have key : ∀ s s' : Junction T, Around Indistinct s s' → s.log = s'.log ∧ s.logLength = s'.logLength ∧
      s.layers.map Layer.mag = s'.layers.map Layer.mag := by
    rintro s s' ⟨h1, h2⟩
    refine ⟨by rw [h2]; rfl, by rw [h2]; rfl, forall₂_eq.1 (indistinctSim.mags h1)⟩
  cases this with
  | @ok a b s s' hq hr => exact ⟨by cases hq; rfl, key s s' hr⟩
  | @fail e s s' hr => exact ⟨rfl, key s s' hr⟩

/-- C32: without thermal and 1/f noise in any layer, nothing observable about a run — success or error, the whole log,
the final magnetisations — depends on the random generators. -/
theorem C32_deterministic (j : Junction T) (hq : ∀ l ∈ j.layers, ¬ Noisy l) (ls : List (Layer T))
    (hls : List.Forall₂ OtherRandomness j.layers ls) (total dt wf : T) (en : Bool) (mode : SolverMode) :
    SameOutcome (j.runSimulation total dt wf en mode) (({ j with layers := ls } : Junction T).runSimulation total dt wf en mode) := by
  refine indistinct_outcome (ls := ls) ?_ total dt wf en mode
  have : ∀ l ∈ j.layers, ¬ Noisy l := hq
  generalize j.layers = ks at hls this
  induction hls with
  | nil => exact .nil
  | @cons l l' ks ls hab _ ih =>
    refine .cons ?_ (ih fun x hx => this x (List.mem_cons_of_mem _ hx))
    obtain ⟨q1, q2⟩ := (quiet_iff l).1 (this l (by simp))
    obtain ⟨g, p, a, b, n, rfl⟩ := hab
    exact ⟨{ l.box with g := g, p := p, a := a, b := b, n := n }, rfl, by simp [q1], by simp [q2]⟩

/-- C32: in the same way per layer: in any junction, exchanging the generators of the quiet layers only changes nothing
observable, even when other layers are noisy. -/
theorem C32_quiet_layers (j : Junction T) (ls : List (Layer T))
    (hls : List.Forall₂ (fun l l' => l' = l ∨ (¬ Noisy l ∧ OtherRandomness l l')) j.layers ls) (total dt wf : T) (en : Bool)
    (mode : SolverMode) :
    SameOutcome (j.runSimulation total dt wf en mode) (({ j with layers := ls } : Junction T).runSimulation total dt wf en mode) := by
  refine indistinct_outcome (ls := ls) (hls.imp ?_) total dt wf en mode
  rintro l l' (rfl | ⟨hq, g, p, a, b, n, rfl⟩)
  · exact .refl _
  · obtain ⟨q1, q2⟩ := (quiet_iff l).1 hq
    exact ⟨{ l.box with g := g, p := p, a := a, b := b, n := n }, rfl, by simp [q1], by simp [q2]⟩

/-- helper -/
theorem mapAddressed_forall₂ {R : Layer T → Layer T → Prop} (hrefl : ∀ l, R l l) (id : String) (f : Layer T → Layer T)
    (ls : List (Layer T)) (hf : ∀ l ∈ ls, Addressed id l → R l (f l)) :
    List.Forall₂ R ls (ls.map fun l => if Addressed id l then f l else l) := by
  induction ls with
  | nil => exact .nil
  | cons l ls ih =>
    refine .cons ?_ (ih fun x hx => hf x (List.mem_cons_of_mem _ hx))
    dsimp only
    split
    · exact hf l (by simp) ‹_›
    · exact hrefl l

/-- helper -/
theorem updateFirst_forall₂ {R : Layer T → Layer T → Prop} (hrefl : ∀ l, R l l) (id : String) (f : Layer T → Layer T)
    (hf : ∀ l, R l (f l)) (ls : List (Layer T)) : List.Forall₂ R ls (updateFirst id (pureSetter f) ls).st := by
  induction ls with
  | nil => exact .nil
  | cons l ls ih =>
    unfold updateFirst
    by_cases h : l.id = id
    · rw [if_pos h]; exact .cons (hf l) (forall₂_refl hrefl _)
    · rw [if_neg h]; exact .cons (hrefl l) ih

/-- C32: `setLayerOneFNoise` has no influence on any run, of any junction, noisy or not. -/
theorem C32_oneF (j j' : Junction T) (id : String) (h : j.setLayerOneFNoise id = .ok () j') (total dt wf : T) (en : Bool)
    (mode : SolverMode) :
    SameOutcome (j.runSimulation total dt wf en mode) (j'.runSimulation total dt wf en mode) := by
  have hst := firstOrAll_st j id (pureSetter (·.setOneFNoise))
  have hj' : j' = (j.firstOrAll id (pureSetter (·.setOneFNoise))).st := by
    have : j.firstOrAll id (pureSetter (·.setOneFNoise)) = .ok () j' := h
    rw [this]; rfl
  rw [hj', hst]
  refine indistinct_outcome ?_ total dt wf en mode
  have hone : ∀ l : Layer T, Indistinct l l.setOneFNoise :=
    fun l => ⟨{ l.box with pink := true }, rfl, fun _ => ⟨rfl, rfl, rfl⟩, fun _ => ⟨rfl, rfl, rfl⟩⟩
  split
  · have := Out.traverse_of_ok (fun (_ : Nat) (l : Layer T) => pureSetter (·.setOneFNoise) l) (fun _ _ => ())
      (fun _ l => l.setOneFNoise) 0 j.layers (fun k a _ => rfl)
    rw [this]
    refine List.Forall₂.of_getElem? (by simp [Out.ok]) ?_
    intro i a b ha hb
    simp only [Out.ok, List.getElem?_mapIdx, ha, Option.map_some, Option.some.injEq] at hb
    rw [← hb]; exact hone a
  · exact updateFirst_forall₂ Indistinct.refl id _ hone _

/-- C32 for the non-stochastic Langevin driver. The full claim would drop `hT`; it is false then, because the setter also
switches thermal noise off (`C32_nonstochastic_refuted`). On layers without a temperature it has no influence at all. -/
theorem C32_nonstochastic_partial (j j' : Junction T) (id : String) (d : ScalarDriver T)
    (hT : ∀ l ∈ j.layers, Addressed id l → l.temperatureSet = false)
    (h : j.setLayerNonStochasticLangevinDriver id d = .ok () j') (total dt wf : T) (en : Bool) (mode : SolverMode) :
    SameOutcome (j.runSimulation total dt wf en mode) (j'.runSimulation total dt wf en mode) := by
  have hex : ∃ l ∈ j.layers, Addressed id l := by
    by_contra hne
    have := (layerSetter_pure j id (·.setNonStochasticLangevinDriver d)).trans (if_neg hne)
    have h' : j.layerSetter id (pureSetter (·.setNonStochasticLangevinDriver d)) = .ok () j' := h
    rw [this] at h'
    simp [Out.ok, Out.fail] at h'
  rw [(C21_setters j id hex).2.1 d] at h
  simp only [Out.ok, Out.mk.injEq, true_and] at h
  rw [← h]
  refine indistinct_outcome (mapAddressed_forall₂ Indistinct.refl id _ j.layers ?_) total dt wf en mode
  intro l hl ha
  have ht := hT l hl ha
  refine ⟨{ l.box with d := d, ns := true }, ?_, by simp [ht], fun _ => ⟨rfl, rfl, rfl⟩⟩
  unfold noise box
  rw [← ht]

/-! ### Non-vacuity and the refuted part -/

example : ∃ (j : Junction ℝ) (ls : List (Layer ℝ)), (∀ l ∈ j.layers, ¬ Noisy l) ∧ List.Forall₂ OtherRandomness j.layers ls ∧
    ls ≠ j.layers ∧ j.layers ≠ [] := by
  refine ⟨aloneJ, [{ quietLayer with gpos := quietLayer.gpos + 1 }], ?_, .cons ⟨_, _, _, _, _, rfl⟩ .nil, ?_, by simp [aloneJ]⟩
  · intro l hl
    have : l = quietLayer := by simpa [aloneJ] using hl
    subst this
    rw [quiet_iff]; exact ⟨rfl, by simp [quietLayer, plainOf, Layer.demo]⟩
  · intro h
    have := congrArg (fun ls : List (Layer ℝ) => ls.map Layer.gpos) h
    simp [aloneJ] at this

example : ∃ j' : Junction ℝ, aloneJ.setLayerOneFNoise "all" = .ok () j' := ⟨_, rfl⟩

example : ∃ j' : Junction ℝ, (∀ l ∈ aloneJ.layers, Addressed "all" l → l.temperatureSet = false) ∧
    aloneJ.setLayerNonStochasticLangevinDriver "all" (.constantDriver 300) = .ok () j' := by
  refine ⟨_, ?_, (C21_setters aloneJ "all" ⟨quietLayer, by simp [aloneJ], .inr rfl⟩).2.1 _⟩
  intro l hl _
  have : l = quietLayer := by simpa [aloneJ] using hl
  subst this; rfl

/-- helper -/
noncomputable def coldJ : Junction ℝ := { demoJ with layers := [coldLayer] }

/-- helper: the cold layer draws a noise vector of length zero -/
theorem cold_step (t : ℝ) : ∃ k, coldJ.runStep .eulerHeun t stepJ = .ok () k ∧
    k.layers.map Layer.mag = [CVec.normalize ⟨0, -1, 1⟩] := by
  have hdt : (220880 : ℝ) * stepJ = 1 := by unfold stepJ; norm_num
  have e1 : coldLayer.langevinVector t = .ok .zero (coldLayer.setGpos (coldLayer.gpos + 3)) := by
    unfold langevinVector langevinStd
    rw [if_neg (by simp [coldLayer, setTemperatureDriver]),
      if_neg (by simp [coldLayer, setTemperatureDriver, quietLayer, plainOf, Layer.demo])]
    dsimp only
    have hd : coldLayer.damping = 0 := rfl
    rw [hd]
    simp only [Out.ok, Out.mk.injEq, Except.ok.injEq]
    constructor
    · ext <;> simp [CVec.ofStream]
    · rfl
  have e2 : (coldLayer.setGpos (coldLayer.gpos + 3)).oneFVector = .ok .zero (coldLayer.setGpos (coldLayer.gpos + 3)) := by
    unfold oneFVector
    rw [if_pos (by simp [coldLayer, setTemperatureDriver, quietLayer, plainOf, Layer.demo, setGpos])]
  obtain ⟨c, hc⟩ := (coldLayer.setGpos (coldLayer.gpos + 3)).llg_ok t (coldLayer.setGpos (coldLayer.gpos + 3)).mag
    .zero .zero quiet_guard
  have hv : (coldLayer.setGpos (coldLayer.gpos + 3)).llgV t (coldLayer.setGpos (coldLayer.gpos + 3)).mag .zero .zero =
      ⟨0, -220880 * 1, 220880 * 0⟩ := quiet_llg t ⟨0, 0, 1⟩ .zero .zero
  rw [hv] at hc
  have hst : eulerHeunLayer [coldLayer.mag] t stepJ 0 coldLayer =
      .ok ⟨0, -1, 1⟩ ((coldLayer.setGpos (coldLayer.gpos + 3)).setCache c) := by
    have hz : (CVec.zero + CVec.zero : CVec ℝ) = .zero := by ext <;> simp
    have hb : below [coldLayer.mag] 0 = .zero := rfl
    have ha : above [coldLayer.mag] 0 = .zero := rfl
    unfold eulerHeunLayer
    simp only [e1, e2, Out.bind_ok, hb, ha, hc, hz, stochasticTorque_zero]
    congr 1
    have hm : ((coldLayer.setGpos (coldLayer.gpos + 3)).setCache c).mag = ⟨0, 0, 1⟩ := rfl
    rw [hm]
    ext <;> simp [hdt]
  have t1 : Out.traverse (eulerHeunLayer ([coldLayer].map Layer.mag) t stepJ) 0 [coldLayer] =
      .ok [⟨0, -1, 1⟩] [(coldLayer.setGpos (coldLayer.gpos + 3)).setCache c] := by
    simp only [List.map_cons, List.map_nil, Out.traverse, hst, Out.ok]
  have hl : coldJ.layers = [coldLayer] := rfl
  unfold runStep eulerHeunSolverStep
  dsimp only
  rw [hl, t1]
  exact ⟨_, rfl, rfl⟩

/-- C32: the non-stochastic Langevin driver does have an influence on a layer with a temperature driver: it removes the
temperature. Here a layer at 0 K is integrated with Euler–Heun before and with RK4 after the call. -/
theorem C32_nonstochastic_refuted : ∃ (j j' k k' : Junction ℝ) (d : ScalarDriver ℝ) (dt : ℝ),
    j.setLayerNonStochasticLangevinDriver "all" d = .ok () j' ∧ j.runSimulation dt dt dt false .RK4 = .ok () k ∧
    j'.runSimulation dt dt dt false .RK4 = .ok () k' ∧ k.layers.map Layer.mag ≠ k'.layers.map Layer.mag := by
  -- before
  obtain ⟨k1, hk1, hm1⟩ := cold_step (Scalar.lit ((0 : Nat) : ℚ) * stepJ)
  have hev : evolve .eulerHeun stepJ 0 1 coldJ = .ok () k1 := by simp only [evolve, hk1, Out.bind_ok]
  obtain ⟨k, hk, hkl⟩ := evolve_runLoop .eulerHeun stepJ 1 false hev rfl (j := coldJ) (by omega) (by intro q; cases q)
  have hrun : coldJ.runSimulation stepJ stepJ stepJ false .RK4 = .ok () k := by
    unfold runSimulation
    rw [if_neg (by simp), toUInt_one]
    dsimp only
    have hs : solverLoop 1 .RK4 coldJ.layers = .ok .EULER_HEUN coldJ.layers := by
      have hl : coldJ.layers = [coldLayer] := rfl
      rw [hl]
      unfold solverLoop
      dsimp only
      have ht : coldLayer.temperatureSet = true := rfl
      rw [if_pos (by simp [coldLayer, setTemperatureDriver, quietLayer, plainOf, Layer.demo]), ht, if_pos rfl]
      rfl
    have hg : coldJ.getSolver .RK4 1 = .ok (.eulerHeun, .EULER_HEUN) coldJ := by
      unfold getSolver; rw [hs]; rfl
    rw [hg]
    exact hk
  -- after
  obtain ⟨k', hk', hm'⟩ := alone_run
  have hout := indistinct_outcome (j := aloneJ) (ls := [coldLayer.setNonStochasticLangevinDriver .null])
    (.cons ⟨{ quietLayer.box with d := .null, ns := true }, rfl, by
      intro h; exact absurd h (by simp [quietLayer, plainOf, Layer.demo]), fun _ => ⟨rfl, rfl, rfl⟩⟩ .nil)
    stepJ stepJ stepJ false .RK4
  have hset : coldJ.setLayerNonStochasticLangevinDriver "all" .null =
      .ok () (aloneJ.withLayers [coldLayer.setNonStochasticLangevinDriver .null]) := by
    have := (C21_setters coldJ "all" ⟨coldLayer, by simp [coldJ], .inr rfl⟩).2.1 .null
    rw [this]
    unfold mapAddressed
    have hl : coldJ.layers = [coldLayer] := rfl
    rw [hl]
    simp only [List.map_cons, List.map_nil]
    rw [if_pos (.inr rfl)]
    rfl
  rw [hk'] at hout
  obtain ⟨o1, -, -, o4⟩ := hout
  generalize ho : (aloneJ.withLayers [coldLayer.setNonStochasticLangevinDriver .null]).runSimulation stepJ stepJ stepJ
    false .RK4 = out at o1 o4
  rcases out with ⟨_ | u, s⟩
  · cases o1
  · refine ⟨coldJ, _, k, s, .null, stepJ, hset, hrun, ho, ?_⟩
    intro e
    rw [← hkl, hm1] at e
    have o4' : k'.layers.map Layer.mag = s.layers.map Layer.mag := o4
    rw [← o4'] at e
    rw [← e] at hm'
    have := ratio_of_normalize (u := (⟨0, -1, 1⟩ : CVec ℝ)) (v := ⟨0, -5 / 6, 13 / 24⟩)
      (by intro q; rw [CVec.eq_zero_iff] at q; norm_num at q)
      (by intro q; rw [CVec.eq_zero_iff] at q; norm_num at q) (by simpa using hm')
    norm_num at this

end Junction
