import Verif.Lemmas.Steps
import Verif.Props.UnitLength

set_option linter.unusedSectionVars false
set_option linter.unusedSimpArgs false

/-! # C18: equilibrium states do not drift -/

namespace Junction
open Spec Layer

/-- Every layer is noise-free, carries no spin torque, and its unit magnetisation is parallel to the effective
field it computes from the current state of its neighbours, at any time. -/
def Equilibrium (j : Junction ℝ) : Prop :=
  ∀ i l, j.layers[i]? = some l → l.mag.length = 1 ∧ ¬ Noisy l ∧ l.includeSTT = false ∧ l.includeSOT = false ∧
    ∀ t, ∃ h l', l.calculateHeff t l.mag (magBelow j.layers i) (magAbove j.layers i) ⟨0, 0, 0⟩ = .ok h l' ∧
      Parallel l.mag h

/-- helper: what is used of an equilibrium layer -/
structure Rest (l : Layer ℝ) (b a : CVec ℝ) : Prop where
  guard : l.Guard
  unit : l.mag.length = 1
  cold : l.temperatureSet = false
  quiet : l.noiseParams.scaleNoise = 0
  still : ∀ t, l.llgV t l.mag b a = .zero

/-- helper -/
theorem normalize_of_unit (v : CVec ℝ) (h : v.length = 1) : v.normalize = v := by
  have hv : v ≠ .zero := by rintro rfl; rw [(CVec.length_eq_zero _).2 rfl] at h; exact zero_ne_one h
  rw [CVec.normalize_of_ne v hv, h]; simp

/-- helper -/
theorem Equilibrium.rest {j : Junction ℝ} (h : j.Equilibrium) {i : Nat} {l : Layer ℝ} (hl : j.layers[i]? = some l) :
    Rest l (magBelow j.layers i) (magAbove j.layers i) := by
  obtain ⟨hu, hn, h1, h2, hp⟩ := h i l hl
  have hz : (⟨0, 0, 0⟩ : CVec ℝ) = .zero := by ext <;> simp
  rw [hz] at hp
  have hg : l.Guard := by
    by_contra hg
    obtain ⟨hf, l', hh, -⟩ := hp 0
    obtain ⟨c, hc⟩ := l.heff_err 0 l.mag (magBelow j.layers i) (magAbove j.layers i) .zero hg
    rw [hc] at hh; simp [Out.ok, Out.fail] at hh
  have hm : l.mag ≠ .zero := by intro e; rw [e, (CVec.length_eq_zero _).2 rfl] at hu; exact zero_ne_one hu
  refine ⟨hg, hu, ?_, ?_, ?_⟩
  · simpa using fun q => hn (.inl q)
  · by_contra q
    exact hn (.inr (by simpa using q))
  · intro t
    obtain ⟨hf, l', hh, hpar⟩ := hp t
    obtain ⟨c, hc⟩ := l.llg_ok t l.mag (magBelow j.layers i) (magAbove j.layers i) hg
    exact (C11_stationary_iff l h1 h2 t _ _ _ hf _ hm l' _ hh hc).2 hpar

/-- helper -/
theorem zmul (s : ℝ) : ((CVec.zero : CVec ℝ) * s) = CVec.zero := by ext <;> simp
theorem lzmul (s : ℝ) : (s * (CVec.zero : CVec ℝ)) = CVec.zero := by ext <;> simp
theorem addz (v : CVec ℝ) : v + CVec.zero = v := by ext <;> simp

theorem Rest.rk4 {l : Layer ℝ} {b a : CVec ℝ} (h : Rest l b a) (t dt : ℝ) :
    ∃ c, l.rk4Step t dt b a = .ok () (l.setCache c) := by
  obtain ⟨c, hc⟩ := l.rk4Step_ok t dt b a h.guard
  have e : l.rk4V t dt b a = l.mag := by
    unfold rk4V rk4U
    simp only [h.still, zmul, addz]
    have : rk4Combine l.mag .zero .zero .zero .zero = l.mag := by
      ext <;> simp [rk4Combine]
    rw [this, normalize_of_unit _ h.unit]
  rw [e, if_neg (by simp)] at hc
  exact ⟨c, hc⟩

theorem Rest.eulerHeun {l : Layer ℝ} {ms : List (CVec ℝ)} {i : Nat} (h : Rest l (below ms i) (above ms i)) (t dt : ℝ) :
    ∃ c, eulerHeunLayer ms t dt i l = .ok l.mag (l.setCache c) := by
  obtain ⟨e1, e2⟩ := noiseless_vectors l t h.cold h.quiet
  obtain ⟨c, hc⟩ := l.llg_ok t l.mag (below ms i) (above ms i) h.guard
  refine ⟨c, ?_⟩
  unfold eulerHeunLayer
  simp only [e1, e2, Out.bind_ok, hc, h.still, addz, zmul, lzmul, stochasticTorque_zero]
  rfl

theorem Rest.predict {l : Layer ℝ} {ms : List (CVec ℝ)} {i : Nat} (h : Rest l (below ms i) (above ms i)) (t dt : ℝ) :
    ∃ c, heunPredict ms t dt i l = .ok ⟨.zero, .zero, .zero, l.mag⟩ (l.setCache c) := by
  obtain ⟨c, hc⟩ := l.llg_ok t l.mag (below ms i) (above ms i) h.guard
  refine ⟨c, ?_⟩
  unfold heunPredict
  obtain ⟨e1, e2⟩ := noiseless_vectors (l.setCache c) t h.cold h.quiet
  simp only [hc, Out.bind_ok, e1, e2, h.still, addz, zmul, lzmul, stochasticTorque_zero]
  rfl

theorem Rest.correct {l : Layer ℝ} {ss : List (HeunStage ℝ)} {i : Nat} (d : LayerLog ℝ)
    (h : Rest l (below (ss.map HeunStage.mNext) i) (above (ss.map HeunStage.mNext) i))
    (hs : ss[i]? = some ⟨.zero, .zero, .zero, l.mag⟩) (t dt : ℝ) :
    ∃ c, heunCorrect ss t dt i (l.setCache d) = .ok () (l.setCache c) := by
  obtain ⟨c, hc⟩ := (l.setCache d).llg_ok (t + dt) l.mag (below (ss.map HeunStage.mNext) i)
    (above (ss.map HeunStage.mNext) i) h.guard
  refine ⟨c, ?_⟩
  unfold heunCorrect
  simp only [hs, hc, Out.bind_ok, llgV_cache, h.still, addz, zmul, lzmul, stochasticTorque_zero]
  have : ((l.setCache d).setCache c).mag.normalize = l.mag := normalize_of_unit _ h.unit
  rw [this]; rfl

/-- helper: layers equal but for the record of the last fields -/
def CacheEq (l l' : Layer ℝ) : Prop := ∃ c, l' = l.setCache c

theorem cacheEq_mags {ls ls' : List (Layer ℝ)} (h : List.Forall₂ CacheEq ls ls') :
    ls'.map Layer.mag = ls.map Layer.mag := by
  induction h with
  | nil => rfl
  | cons hab _ ih => obtain ⟨c, rfl⟩ := hab; simp [ih]; rfl

theorem Equilibrium.cacheEq {j k : Junction ℝ} (h : j.Equilibrium) (hl : List.Forall₂ CacheEq j.layers k.layers) :
    k.Equilibrium := by
  intro i l' hl'
  obtain ⟨l, hli⟩ : ∃ l, j.layers[i]? = some l := by
    have : i < j.layers.length := by rw [hl.length_eq]; exact (List.getElem?_eq_some_iff.1 hl').1
    exact ⟨_, List.getElem?_eq_getElem this⟩
  obtain ⟨l2, hl2, c, hc⟩ := hl.getElem?_some hli
  have : l2 = l' := by rw [hl2] at hl'; exact Option.some.inj hl'
  subst this
  subst hc
  obtain ⟨g1, g2, g3, g4, g5⟩ := h i l hli
  have hm := cacheEq_mags hl
  have hb : magBelow k.layers i = magBelow j.layers i := by rw [← below_eq, hm, below_eq]
  have ha : magAbove k.layers i = magAbove j.layers i := by rw [← above_eq, hm, above_eq]
  refine ⟨g1, g2, g3, g4, fun t => ?_⟩
  rw [hb, ha]
  obtain ⟨hf, l', hh, hp⟩ := g5 t
  have hg := (h.rest hli).guard
  obtain ⟨c1, hc1⟩ := l.heff_ok t l.mag (magBelow j.layers i) (magAbove j.layers i) ⟨0, 0, 0⟩ hg
  obtain ⟨c2, hc2⟩ := (l.setCache c).heff_ok t l.mag (magBelow j.layers i) (magAbove j.layers i) ⟨0, 0, 0⟩ hg
  refine ⟨_, _, hc2, ?_⟩
  rw [hc1] at hh
  simp only [Out.ok, Out.mk.injEq, Except.ok.injEq] at hh
  rw [← hh.1] at hp
  exact hp

/-- helper: a step in equilibrium -/
theorem equilibrium_step (j : Junction ℝ) (h : j.Equilibrium) (r : Runner) (h1 : r = .single → j.layers.length = 1)
    (t dt : ℝ) : ∃ k, j.runStep r t dt = .ok () k ∧ List.Forall₂ CacheEq j.layers k.layers := by
  cases r with
  | single =>
    obtain ⟨l, hl⟩ := List.length_eq_one_iff.1 (h1 rfl)
    have hr := h.rest (i := 0) (l := l) (by rw [hl]; rfl)
    have hb : magBelow j.layers 0 = .zero := rfl
    have ha : magAbove j.layers 0 = .zero := by rw [hl]; rfl
    rw [hb, ha] at hr
    obtain ⟨c, hc⟩ := hr.rk4 t dt
    unfold runStep runSingleLayerSolver
    dsimp only
    rw [hl]
    dsimp only
    rw [hc]
    exact ⟨_, rfl, .cons ⟨c, rfl⟩ .nil⟩
  | multi =>
    obtain ⟨bs, ls, ht, hbl, hlen, hP⟩ := Out.traverse_exists (fun i l => l.rk4Step t dt ((magCopies j.layers).getD i .zero)
      ((magCopies j.layers).getD (i + 2) .zero)) (fun _ l _ l' => CacheEq l l') 0 j.layers (by
        intro k l hk
        have hlt : k < j.layers.length := (List.getElem?_eq_some_iff.1 hk).1
        rw [Nat.zero_add, copies_below _ _ hlt, copies_above _ _ hlt]
        obtain ⟨c, hc⟩ := (h.rest hk).rk4 t dt
        exact ⟨_, _, hc, c, rfl⟩)
    unfold runStep runMultiLayerSolver
    dsimp only
    rw [ht]
    refine ⟨_, rfl, List.Forall₂.of_getElem? hlen.symm ?_⟩
    intro i a b ha hb
    have hblt : i < bs.length := by
      have : i < j.layers.length := (List.getElem?_eq_some_iff.1 ha).1
      omega
    exact hP i a bs[i] b ha (List.getElem?_eq_getElem hblt) hb
  | heun =>
    obtain ⟨ss, ls, ht, hsl, hlen, hP⟩ := Out.traverse_exists (heunPredict (j.layers.map Layer.mag) t dt)
      (fun _ l s l' => CacheEq l l' ∧ s = ⟨.zero, .zero, .zero, l.mag⟩) 0 j.layers (by
        intro k l hk
        rw [Nat.zero_add]
        have := h.rest hk
        rw [← below_eq, ← above_eq] at this
        obtain ⟨c, hc⟩ := this.predict t dt
        exact ⟨_, _, hc, ⟨c, rfl⟩, rfl⟩)
    have hnext : ss.map HeunStage.mNext = j.layers.map Layer.mag := by
      apply List.ext_getElem?
      intro i
      rw [List.getElem?_map, List.getElem?_map]
      by_cases hi : i < j.layers.length
      · have h1 : j.layers[i]? = some j.layers[i] := List.getElem?_eq_getElem hi
        have h2 : ss[i]? = some ss[i] := List.getElem?_eq_getElem (by omega)
        have h3 : ls[i]? = some ls[i] := List.getElem?_eq_getElem (by omega)
        have := (hP i _ _ _ h1 h2 h3).2
        rw [h1, h2, this]; rfl
      · rw [List.getElem?_eq_none_iff.2 (by omega), List.getElem?_eq_none_iff.2 (by omega)]; rfl
    obtain ⟨bs, ls', ht', -, hlen', hP'⟩ := Out.traverse_exists (heunCorrect ss t dt)
      (fun i _ _ l' => ∀ l, j.layers[i]? = some l → CacheEq l l') 0 ls (by
        intro k l hk
        rw [Nat.zero_add]
        have hlt : k < j.layers.length := by
          have := (List.getElem?_eq_some_iff.1 hk).1; omega
        have h1 : j.layers[k]? = some j.layers[k] := List.getElem?_eq_getElem hlt
        have h2 : ss[k]? = some ss[k] := List.getElem?_eq_getElem (by omega)
        obtain ⟨⟨d, rfl⟩, hs⟩ := hP k _ _ _ h1 h2 hk
        have := h.rest h1
        rw [← below_eq, ← above_eq, ← hnext] at this
        obtain ⟨c, hc⟩ := this.correct d (by rw [h2, hs]) t dt
        refine ⟨_, _, hc, ?_⟩
        intro l hl
        rw [h1] at hl; cases hl
        exact ⟨c, rfl⟩)
    unfold runStep heunSolverStep
    dsimp only
    rw [ht]
    dsimp only [Out.ok]
    rw [ht']
    refine ⟨_, rfl, List.Forall₂.of_getElem? (by rw [← hlen, ← hlen']) ?_⟩
    intro i a b ha hb
    have hi : i < j.layers.length := (List.getElem?_eq_some_iff.1 ha).1
    have hbb : i < bs.length := by
      have := (Out.traverse_ok _ ht').1; omega
    have := hP' i ls[i] bs[i] b (List.getElem?_eq_getElem (by omega)) (List.getElem?_eq_getElem hbb) hb a
    rw [Nat.zero_add] at this
    exact this ha
  | eulerHeun =>
    obtain ⟨ms, ls, ht, hml, hlen, hP⟩ := Out.traverse_exists (eulerHeunLayer (j.layers.map Layer.mag) t dt)
      (fun _ l m l' => CacheEq l l' ∧ m = l.mag) 0 j.layers (by
        intro k l hk
        rw [Nat.zero_add]
        have := h.rest hk
        rw [← below_eq, ← above_eq] at this
        obtain ⟨c, hc⟩ := this.eulerHeun t dt
        exact ⟨_, _, hc, ⟨c, rfl⟩, rfl⟩)
    unfold runStep eulerHeunSolverStep
    dsimp only
    rw [ht]
    refine ⟨_, rfl, ?_⟩
    show List.Forall₂ CacheEq j.layers (storeMags ls ms)
    have hF : List.Forall₂ CacheEq j.layers ls := by
      refine List.Forall₂.of_getElem? hlen.symm ?_
      intro i a b ha hb
      have hi : i < j.layers.length := (List.getElem?_eq_some_iff.1 ha).1
      exact (hP i a ms[i] b ha (List.getElem?_eq_getElem (by omega)) hb).1
    have hms : ms = ls.map Layer.mag := by
      rw [cacheEq_mags hF]
      apply List.ext_getElem?
      intro i
      rw [List.getElem?_map]
      by_cases hi : i < j.layers.length
      · have h1 : j.layers[i]? = some j.layers[i] := List.getElem?_eq_getElem hi
        have h2 : ms[i]? = some ms[i] := List.getElem?_eq_getElem (by omega)
        have h3 : ls[i]? = some ls[i] := List.getElem?_eq_getElem (by omega)
        have := (hP i _ _ _ h1 h2 h3).2
        rw [h1, h2, this]; rfl
      · rw [List.getElem?_eq_none_iff.2 (by omega), List.getElem?_eq_none_iff.2 (by omega)]; rfl
    have hu : ∀ l ∈ ls, l.mag.length = 1 := by
      intro l hl
      obtain ⟨i, hi⟩ := List.getElem?_of_mem hl
      have hlt : i < j.layers.length := by have := (List.getElem?_eq_some_iff.1 hi).1; omega
      obtain ⟨l2, hl2, c, rfl⟩ := hF.getElem?_some (List.getElem?_eq_getElem hlt)
      rw [hi] at hl2; cases hl2
      exact (h.rest (List.getElem?_eq_getElem hlt)).unit
    have hst : ∀ ls : List (Layer ℝ), (∀ l ∈ ls, l.mag.length = 1) → storeMags ls (ls.map Layer.mag) = ls := by
      intro ls
      induction ls with
      | nil => intro _; rfl
      | cons l ls ih =>
        intro hl
        simp only [List.map_cons, storeMags]
        rw [ih (fun l hl' => hl l (List.mem_cons_of_mem _ hl')), normalize_of_unit _ (hl l (by simp))]
        rfl
    rw [hms, hst ls hu]
    exact hF

/-- C18. From an equilibrium any number of steps at any times with any solver succeeds and leaves every
magnetisation where it was. -/
theorem C18_steps (j : Junction ℝ) (h : j.Equilibrium) (r : Runner) (h1 : r = .single → j.layers.length = 1)
    (dt : ℝ) (i n : Nat) :
    ∃ k, steps r dt i n j = .ok () k ∧ k.layers.map Layer.mag = j.layers.map Layer.mag ∧ k.Equilibrium := by
  suffices ∃ k, steps r dt i n j = .ok () k ∧ List.Forall₂ CacheEq j.layers k.layers by
    obtain ⟨k, h2, h3⟩ := this
    exact ⟨k, h2, cacheEq_mags h3, h.cacheEq h3⟩
  induction n generalizing i j with
  | zero =>
    refine ⟨j, rfl, ?_⟩
    have : ∀ ls : List (Layer ℝ), List.Forall₂ CacheEq ls ls := by
      intro ls; induction ls with
      | nil => exact .nil
      | cons l ls ih => exact .cons ⟨l.cache, rfl⟩ ih
    exact this _
  | succ n ih =>
    obtain ⟨k, hk, hF⟩ := equilibrium_step j h r h1 (Scalar.lit (i : ℚ) * dt) dt
    obtain ⟨k2, hk2, hF2⟩ := ih k (h.cacheEq hF) (fun e => by rw [← hF.length_eq]; exact h1 e) (i + 1)
    refine ⟨k2, ?_, ?_⟩
    · simp only [steps, hk, Out.bind_ok, hk2]
    · refine List.Forall₂.of_getElem? (hF.length_eq.trans hF2.length_eq) ?_
      intro q a b ha hb
      obtain ⟨l2, hl2, c, rfl⟩ := hF.getElem?_some ha
      obtain ⟨l3, hl3, c', rfl⟩ := hF2.getElem?_some hl2
      rw [hl3] at hb; cases hb
      exact ⟨c', rfl⟩

/-- C18 for whole runs: whatever the duration, sampling, logging and requested solver, the magnetisations after
a run started in equilibrium are the ones before. -/
theorem C18_run (j : Junction ℝ) (h : j.Equilibrium) (total dt wf : ℝ) (en : Bool) (mode : SolverMode)
    (k : Junction ℝ) (hk : j.runSimulation total dt wf en mode = .ok () k) :
    k.layers.map Layer.mag = j.layers.map Layer.mag ∧ k.Equilibrium := by
  obtain ⟨N, W, r, m, j1, -, -, -, hg, hl⟩ := Sim.run_inv hk
  rw [solver_quiet j (fun l hl => by
    obtain ⟨i, hi⟩ := List.getElem?_of_mem hl
    exact (h i l hi).2.1)] at hg
  simp only [Out.ok, Out.mk.injEq, Except.ok.injEq, Prod.mk.injEq] at hg
  obtain ⟨⟨rfl, rfl⟩, rfl⟩ := hg
  obtain ⟨e, he, hle⟩ := runLoop_evolve _ dt W en hl rfl
  rw [← steps_eq_evolve] at he
  have h1 : pickRunner j.layers.length mode = .single → j.layers.length = 1 := by
    unfold pickRunner
    split
    · intro q; cases q
    · split
      · intro q; cases q
      · split
        · intro _; assumption
        · intro q; cases q
  obtain ⟨k2, hk2, hm, heq⟩ := C18_steps j h _ h1 dt 0 N
  rw [hk2] at he
  simp only [Out.ok, Out.mk.injEq, true_and] at he
  subst he
  rw [hle]
  refine ⟨hm, ?_⟩
  intro i l hli
  rw [hle] at hli ⊢
  exact heq i l hli

/-- C18. With time-independent drivers it is enough that the magnetisations are parallel to the effective fields
at one instant. -/
theorem C18_constant_drivers (j : Junction ℝ) (t0 : ℝ)
    (h : ∀ i l, j.layers[i]? = some l → l.mag.length = 1 ∧ ¬ Noisy l ∧ l.includeSTT = false ∧ l.includeSOT = false ∧
      TimeIndependent l ∧
      ∃ h l', l.calculateHeff t0 l.mag (magBelow j.layers i) (magAbove j.layers i) ⟨0, 0, 0⟩ = .ok h l' ∧
        Parallel l.mag h) : j.Equilibrium := by
  intro i l hl
  obtain ⟨h1, h2, h3, h4, h5, hf, l', hh, hp⟩ := h i l hl
  refine ⟨h1, h2, h3, h4, fun t => ?_⟩
  by_cases hg : l.Guard
  · obtain ⟨c1, hc1⟩ := l.heff_ok t0 l.mag (magBelow j.layers i) (magAbove j.layers i) ⟨0, 0, 0⟩ hg
    obtain ⟨c2, hc2⟩ := l.heff_ok t l.mag (magBelow j.layers i) (magAbove j.layers i) ⟨0, 0, 0⟩ hg
    rw [hc1] at hh
    simp only [Out.ok, Out.mk.injEq, Except.ok.injEq] at hh
    rw [h5.heffV t0 t] at hh
    refine ⟨_, _, hc2, ?_⟩
    rw [hh.1]; exact hp
  · obtain ⟨c, hc⟩ := l.heff_err t0 l.mag (magBelow j.layers i) (magAbove j.layers i) ⟨0, 0, 0⟩ hg
    rw [hc] at hh; simp [Out.ok, Out.fail] at hh

/-- two layers at rest in a field along z, coupled to each other -/
noncomputable def restJ : Junction ℝ :=
  { demoJ with layers :=
      [{ plainOf Layer.demo with externalFieldDriver := .ofVec ⟨0, 0, 1⟩, IECDriverTop := .constantDriver 1 },
       { plainOf Layer.demo with externalFieldDriver := .ofVec ⟨0, 0, 1⟩, IECDriverBottom := .constantDriver 1 }] }

example : restJ.Equilibrium := by
  intro i l hl
  have hlen : (⟨0, 0, 1⟩ : CVec ℝ).length = 1 := by
    rw [CVec.length_eq]; simp only [CVec.normSq]; norm_num
  have par : ∀ h : CVec ℝ, h.x = 0 → h.y = 0 → Parallel ⟨0, 0, 1⟩ h := by
    intro h hx hy; exact ⟨h.z, by ext <;> simp [hx, hy]⟩
  match i, hl with
  | 0, hl =>
    cases hl
    refine ⟨hlen, ?_, rfl, rfl, fun t => ?_⟩
    · rintro (h | h) <;> simp [plainOf, Layer.demo] at h
    · obtain ⟨c, hc⟩ := heff_ok (restJ.layers[0]'(by simp [restJ])) t ⟨0, 0, 1⟩ (magBelow restJ.layers 0)
        (magAbove restJ.layers 0) ⟨0, 0, 0⟩ (by simp [Guard, restJ, plainOf, Layer.demo])
      refine ⟨_, _, hc, par _ ?_ ?_⟩ <;>
        simp [heffV, dipV, restJ, plainOf, Layer.demo, magBelow, magAbove, iecV, idmiV, CVec.divU, anisotropyField,
          Tensor.interaction, AxialDriver.value, AxialDriver.ofVec, AxialDriver.null, ScalarDriver.value, ScalarDriver.null,
          ScalarDriver.constantDriver, Tensor.zero, CVec.dot]
  | 1, hl =>
    cases hl
    refine ⟨hlen, ?_, rfl, rfl, fun t => ?_⟩
    · rintro (h | h) <;> simp [plainOf, Layer.demo] at h
    · obtain ⟨c, hc⟩ := heff_ok (restJ.layers[1]'(by simp [restJ])) t ⟨0, 0, 1⟩ (magBelow restJ.layers 1)
        (magAbove restJ.layers 1) ⟨0, 0, 0⟩ (by simp [Guard, restJ, plainOf, Layer.demo])
      refine ⟨_, _, hc, par _ ?_ ?_⟩ <;>
        simp [heffV, dipV, restJ, plainOf, Layer.demo, magBelow, magAbove, iecV, idmiV, CVec.divU, anisotropyField,
          Tensor.interaction, AxialDriver.value, AxialDriver.ofVec, AxialDriver.null, ScalarDriver.value, ScalarDriver.null,
          ScalarDriver.constantDriver, Tensor.zero, CVec.dot]
  | n + 2, hl => simp [restJ] at hl

end Junction
