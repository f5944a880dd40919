import Verif.Lemmas.Run
import Verif.Props.Torque

set_option linter.unusedSectionVars false
set_option linter.unusedSimpArgs false

/-! # C16, C17: the magnetisation is a unit vector -/

/-- The two admissible outcomes of a normalisation. -/
def UnitOrZero (v : CVec ℝ) : Prop := v.length = 1 ∨ v = ⟨0, 0, 0⟩

/-- helper -/
theorem normalize_unitOrZero (v : CVec ℝ) : UnitOrZero v.normalize := by
  by_cases h : v = .zero
  · right; rw [h, CVec.normalize_zero]; ext <;> simp
  · left; rw [CVec.length_eq_one]; exact CVec.normSq_normalize v h

/-- helper -/
theorem normalize_unit_of_dot (u v : CVec ℝ) (h : 0 < u.dot v) : u.normalize.length = 1 := by
  rw [CVec.length_eq_one]
  apply CVec.normSq_normalize
  rintro rfl
  simp [CVec.dot] at h

namespace Layer

/-- helper: a Runge–Kutta step stores a normalised vector -/
theorem rk4Step_mag (l l' : Layer ℝ) (t dt : ℝ) (b a : CVec ℝ) (h : l.rk4Step t dt b a = .ok () l') :
    l'.mag = l.rk4V t dt b a := by
  by_cases hg : l.Guard
  · obtain ⟨c, hc⟩ := l.rk4Step_ok t dt b a hg
    rw [hc, if_neg (by simp)] at h
    simp only [Out.ok, Out.mk.injEq, true_and] at h
    rw [← h]; rfl
  · obtain ⟨c, hc⟩ := l.rk4Step_err t dt b a hg
    rw [hc] at h; simp [Out.ok, Out.fail] at h

/-- helper: value of the right-hand side, orthogonality -/
theorem llgV_dot (l : Layer ℝ) (t : ℝ) (m b a : CVec ℝ) : (l.llgV t m b a).dot m = 0 := solveLLG_dot _ _ _ _ _ _

end Layer

namespace Junction
open Layer

/-- helper: storing normalised vectors -/
theorem storeMags_unit (ls : List (Layer ℝ)) (ms : List (CVec ℝ)) (h : ms.length = ls.length) :
    ∀ l ∈ storeMags ls ms, ∃ u : CVec ℝ, l.mag = u.normalize := by
  induction ls generalizing ms with
  | nil => intro l hl; cases ms <;> simp [storeMags] at hl
  | cons a ls ih =>
    cases ms with
    | nil => simp at h
    | cons m ms =>
      intro l hl
      simp only [storeMags, List.mem_cons] at hl
      rcases hl with rfl | hl
      · exact ⟨m, rfl⟩
      · exact ih ms (by simpa using h) l hl

/-- C16. After a successful step with any solver (any noise, any fields) every layer's magnetisation has length
one or is the zero vector. The single-layer solver is only ever chosen for one layer (`C16_single_only_alone`). -/
theorem C16_step (j k : Junction ℝ) (r : Runner) (t dt : ℝ) (h : j.runStep r t dt = .ok () k)
    (h1 : r = .single → j.layers.length = 1) : ∀ l ∈ k.layers, UnitOrZero l.mag := by
  suffices ∀ l ∈ k.layers, ∃ u : CVec ℝ, l.mag = u.normalize by
    intro l hl; obtain ⟨u, hu⟩ := this l hl; rw [hu]; exact normalize_unitOrZero u
  cases r with
  | single =>
    have h1 := h1 rfl
    obtain ⟨l, hl⟩ := List.length_eq_one_iff.1 h1
    unfold runStep runSingleLayerSolver at h
    rw [hl] at h
    dsimp only at h
    rcases hs : l.rk4Step t dt .zero .zero with ⟨q, l'⟩
    rw [hs] at h
    simp only [Out.ok, Out.mk.injEq] at h
    obtain ⟨rfl, rfl⟩ := h
    intro l2 hl2
    simp only [List.mem_singleton] at hl2
    subst hl2
    exact ⟨_, rk4Step_mag l l2 t dt _ _ hs⟩
  | multi =>
    unfold runStep runMultiLayerSolver at h
    dsimp only at h
    rcases hs : Out.traverse (fun i l => l.rk4Step t dt ((magCopies j.layers).getD i .zero)
      ((magCopies j.layers).getD (i + 2) .zero)) 0 j.layers with ⟨_ | bs, ls⟩
    · rw [hs] at h; simp [Out.ok, Out.fail] at h
    · rw [hs] at h
      simp only [Out.ok, Out.mk.injEq, true_and] at h
      rw [← h]
      obtain ⟨-, h2, h3⟩ := Out.traverse_ok _ hs
      intro l hl
      obtain ⟨i, hi⟩ := List.getElem?_of_mem hl
      have hlt : i < j.layers.length := by
        rw [← h2]; exact (List.getElem?_eq_some_iff.1 hi).1
      obtain ⟨b, a', -, ha', hst⟩ := h3 i j.layers[i] (List.getElem?_eq_getElem hlt)
      have e : some a' = some l := ha'.symm.trans hi
      cases e
      exact ⟨_, rk4Step_mag _ _ _ _ _ _ hst⟩
  | heun =>
    unfold runStep heunSolverStep at h
    dsimp only at h
    rcases hs : Out.traverse (heunPredict (j.layers.map Layer.mag) t dt) 0 j.layers with ⟨_ | ss, ls⟩
    · rw [hs] at h; simp [Out.ok, Out.fail] at h
    · rw [hs] at h
      dsimp only at h
      rcases hc : Out.traverse (heunCorrect ss t dt) 0 ls with ⟨_ | bs, ls'⟩
      · rw [hc] at h; simp [Out.ok, Out.fail] at h
      · rw [hc] at h
        simp only [Out.ok, Out.mk.injEq, true_and] at h
        rw [← h]
        obtain ⟨-, h2, h3⟩ := Out.traverse_ok _ hc
        intro l hl
        obtain ⟨i, hi⟩ := List.getElem?_of_mem hl
        have hlt : i < ls.length := by
          rw [← h2]; exact (List.getElem?_eq_some_iff.1 hi).1
        obtain ⟨b, a', -, ha', hst⟩ := h3 i ls[i] (List.getElem?_eq_getElem hlt)
        have e : some a' = some l := ha'.symm.trans hi
        cases e
        unfold heunCorrect at hst
        split at hst
        · simp [Out.ok, Out.fail] at hst
        · obtain ⟨f, l1, -, hst⟩ := Out.bind_eq_ok hst
          simp only [Out.ok, Out.mk.injEq, true_and] at hst
          rw [← hst]
          exact ⟨_, rfl⟩
  | eulerHeun =>
    unfold runStep eulerHeunSolverStep at h
    dsimp only at h
    rcases hs : Out.traverse (eulerHeunLayer (j.layers.map Layer.mag) t dt) 0 j.layers with ⟨_ | ms, ls⟩
    · rw [hs] at h; simp [Out.ok, Out.fail] at h
    · rw [hs] at h
      simp only [Out.ok, Out.mk.injEq, true_and] at h
      rw [← h]
      obtain ⟨h1, h2, -⟩ := Out.traverse_ok _ hs
      exact storeMags_unit ls ms (h1.trans h2.symm)

/-- The single-layer solver is chosen only for junctions of exactly one layer. -/
theorem C16_single_only_alone {T : Type} [Scalar T] (j j1 : Junction T) (mode m : SolverMode) (n : Nat)
    (h : j.getSolver mode n = .ok (.single, m) j1) : j1.layers.length = 1 := by
  have hp := Sim.getSolver_params j mode n
  rw [h] at hp
  have hl := hp.2.2.2.2.2.2.2.2.2.2.2
  unfold getSolver at h
  rcases hs : solverLoop n mode j.layers with ⟨_ | q, ls⟩
  · rw [hs] at h; simp [Out.ok, Out.fail] at h
  · rw [hs] at h
    simp only [Out.ok, Out.mk.injEq, Except.ok.injEq, Prod.mk.injEq] at h
    have h1 := h.1.1
    unfold pickRunner at h1
    split at h1
    · cases h1
    · split at h1
      · cases h1
      · split at h1
        · rename_i hn; exact hl.symm.trans hn
        · cases h1

/-- C16 for whole runs: every successful simulation of at least one step ends with unit-or-zero
magnetisations. As the run length is arbitrary, this covers the state after every step. -/
theorem C16_run (j k : Junction ℝ) (total dt wf : ℝ) (en : Bool) (mode : SolverMode) (hdt : 0 < dt)
    (ht : dt ≤ total) (h : j.runSimulation total dt wf en mode = .ok () k) : ∀ l ∈ k.layers, UnitOrZero l.mag := by
  obtain ⟨N, W, r, m, j1, -, hN, -, hg, hl⟩ := Sim.run_inv h
  have hN0 : N ≠ 0 := by
    rintro rfl
    change (if _ then _ else _) = _ at hN
    split at hN
    · simp only [Option.some.injEq, Int.toNat_eq_zero] at hN
      have h1 : (1 : ℝ) ≤ total / dt := by rw [le_div_iff₀ hdt]; linarith
      have : (1 : ℤ) ≤ Scalar.truncR (total / dt) := by
        unfold Scalar.truncR
        rw [if_pos (by linarith)]
        exact Int.le_floor.2 (by exact_mod_cast h1)
      omega
    · simp at hN
  obtain ⟨n, rfl⟩ := Nat.exists_eq_succ_of_ne_zero hN0
  obtain ⟨e, he, hle⟩ := runLoop_evolve r dt W en hl rfl
  rw [hle]
  rw [Nat.succ_eq_add_one, evolve_add] at he
  obtain ⟨h1, h2⟩ := bind_unit_ok he
  simp only [evolve] at h2
  obtain ⟨h3, h4⟩ := bind_unit_ok h2
  simp only [evolve, Out.ok, Out.mk.injEq, true_and] at h4
  rw [← h4]
  refine C16_step _ _ r _ dt h3 ?_
  rintro rfl
  have hlen := C16_single_only_alone j j1 mode m _ hg
  have hev : ∀ (n i : Nat) (j : Junction ℝ), (evolve .single dt i n j).st.layers.length = j.layers.length := by
    intro n
    induction n with
    | zero => intro i j; rfl
    | succ n ih =>
      intro i j
      have hs := runStep_length j .single (Scalar.lit (i : ℚ) * dt) dt
      simp only [evolve]
      rcases hq : j.runStep .single (Scalar.lit (i : ℚ) * dt) dt with ⟨_ | _, q⟩
      · rw [hq] at hs; exact hs
      · rw [hq] at hs; exact (ih _ _).trans hs
  rw [hev, hlen]

/-- helper: the layers a noiseless Euler–Heun iteration leaves -/
theorem noiseless_vectors (l : Layer ℝ) (t : ℝ) (h1 : l.temperatureSet = false) (h2 : l.noiseParams.scaleNoise = 0) :
    l.langevinVector t = .ok .zero l ∧ l.oneFVector = .ok .zero l := by
  constructor
  · unfold langevinVector; simp [h1]
  · unfold oneFVector; simp [h2]

/-- helper -/
theorem stochasticTorque_zero (l : Layer ℝ) (m : CVec ℝ) : l.stochasticTorque m .zero = .zero := by
  ext <;> simp [stochasticTorque]

/-- C16. A noiseless layer with a unit magnetisation keeps exactly unit length under an Euler–Heun step: the
update never vanishes, whatever the field and the step size. -/
theorem C16_eulerHeun_unit (j k : Junction ℝ) (t dt : ℝ) (h : j.eulerHeunSolverStep t dt = .ok () k) (i : Nat)
    (l l' : Layer ℝ) (hl : j.layers[i]? = some l) (hl' : k.layers[i]? = some l') (hu : l.mag.length = 1)
    (n1 : l.temperatureSet = false) (n2 : l.noiseParams.scaleNoise = 0) : l'.mag.length = 1 := by
  unfold eulerHeunSolverStep at h
  dsimp only at h
  rcases hs : Out.traverse (eulerHeunLayer (j.layers.map Layer.mag) t dt) 0 j.layers with ⟨_ | ms, ls⟩
  · rw [hs] at h; simp [Out.ok, Out.fail] at h
  · rw [hs] at h
    simp only [Out.ok, Out.mk.injEq, true_and] at h
    rw [← h] at hl'
    obtain ⟨g1, g2, h3⟩ := Out.traverse_ok _ hs
    obtain ⟨m, a', hm, ha', hst⟩ := h3 i l hl
    have store : ∀ (ls : List (Layer ℝ)) (ms : List (CVec ℝ)) (i : Nat) (a : Layer ℝ) (m : CVec ℝ),
        ls[i]? = some a → ms[i]? = some m → (storeMags ls ms)[i]? = some (a.setMag m.normalize) := by
      intro ls
      induction ls with
      | nil => intro ms i a m ha; simp at ha
      | cons x ls ih =>
        intro ms i a m ha hm
        cases ms with
        | nil => simp at hm
        | cons y ms =>
          cases i with
          | zero => simp at ha hm; subst ha; subst hm; simp [storeMags]
          | succ i => simp at ha hm; simpa [storeMags] using ih ms i a m ha hm
    have := store ls ms i a' m ha' hm
    have hl' : (storeMags ls ms)[i]? = some l' := hl'
    rw [this] at hl'
    cases hl'
    show m.normalize.length = 1
    unfold eulerHeunLayer at hst
    obtain ⟨e1, e2⟩ := noiseless_vectors l t n1 n2
    simp only [e1, e2, Out.bind_ok] at hst
    obtain ⟨f, l1, hf, hst⟩ := Out.bind_eq_ok hst
    simp only [Out.ok, Out.mk.injEq, Except.ok.injEq] at hst
    by_cases hg : l.Guard
    · obtain ⟨c, hc⟩ := l.llg_ok t l.mag (below (j.layers.map Layer.mag) (0 + i)) (above (j.layers.map Layer.mag) (0 + i)) hg
      rw [hc] at hf
      simp only [Out.ok, Out.mk.injEq, Except.ok.injEq] at hf
      obtain ⟨hf1, hf2⟩ := hf
      rw [← hst.1, ← hf2, ← hf1]
      have hz : (CVec.zero + CVec.zero : CVec ℝ) = .zero := by ext <;> simp
      have hz2 : ∀ s : ℝ, ((CVec.zero : CVec ℝ) * s) = CVec.zero := by intro s; ext <;> simp
      have hz3 : ∀ s : ℝ, (s * (CVec.zero : CVec ℝ)) = CVec.zero := by intro s; ext <;> simp
      have hz4 : ∀ v : CVec ℝ, v + CVec.zero = v := by intro v; ext <;> simp
      simp only [hz, stochasticTorque_zero, hz2, hz3, hz4]
      apply normalize_unit_of_dot _ l.mag
      have hmag : (l.setCache c).mag = l.mag := rfl
      rw [hmag, CVec.add_dot, CVec.mulr_dot, llgV_dot, zero_mul, add_zero, ← CVec.normSq_eq_dot,
        (CVec.length_eq_one l.mag).1 hu]
      norm_num
    · obtain ⟨c, hc⟩ := l.llg_err t l.mag (below (j.layers.map Layer.mag) (0 + i)) (above (j.layers.map Layer.mag) (0 + i)) hg
      rw [hc] at hf; simp [Out.ok, Out.fail] at hf

/-- C16. The same for a Heun step. -/
theorem C16_heun_unit (j k : Junction ℝ) (t dt : ℝ) (h : j.heunSolverStep t dt = .ok () k) (i : Nat)
    (l l' : Layer ℝ) (hl : j.layers[i]? = some l) (hl' : k.layers[i]? = some l') (hu : l.mag.length = 1)
    (n1 : l.temperatureSet = false) (n2 : l.noiseParams.scaleNoise = 0) : l'.mag.length = 1 := by
  unfold heunSolverStep at h
  dsimp only at h
  rcases hs : Out.traverse (heunPredict (j.layers.map Layer.mag) t dt) 0 j.layers with ⟨_ | ss, ls⟩
  · rw [hs] at h; simp [Out.ok, Out.fail] at h
  · rw [hs] at h
    dsimp only at h
    rcases hc : Out.traverse (heunCorrect ss t dt) 0 ls with ⟨_ | bs, ls'⟩
    · rw [hc] at h; simp [Out.ok, Out.fail] at h
    · rw [hc] at h
      simp only [Out.ok, Out.mk.injEq, true_and] at h
      rw [← h] at hl'
      have hl' : ls'[i]? = some l' := hl'
      obtain ⟨-, -, h3⟩ := Out.traverse_ok _ hs
      obtain ⟨s, l1, hss, hl1, hst⟩ := h3 i l hl
      obtain ⟨-, -, h4⟩ := Out.traverse_ok _ hc
      obtain ⟨_, l2, -, hl2, hst2⟩ := h4 i l1 hl1
      rw [hl2] at hl'; cases hl'
      -- the predictor
      unfold heunPredict at hst
      obtain ⟨f, la, hf, hst⟩ := Out.bind_eq_ok hst
      by_cases hg : l.Guard
      swap
      · obtain ⟨c, hc⟩ := l.llg_err t l.mag (below (j.layers.map Layer.mag) (0 + i)) (above (j.layers.map Layer.mag) (0 + i)) hg
        rw [hc] at hf; simp [Out.ok, Out.fail] at hf
      obtain ⟨c, hc⟩ := l.llg_ok t l.mag (below (j.layers.map Layer.mag) (0 + i)) (above (j.layers.map Layer.mag) (0 + i)) hg
      rw [hc] at hf
      simp only [Out.ok, Out.mk.injEq, Except.ok.injEq] at hf
      obtain ⟨hf1, hf2⟩ := hf
      subst hf2
      obtain ⟨e1, e2⟩ := noiseless_vectors (l.setCache c) t n1 n2
      simp only [e1, e2, Out.bind_ok] at hst
      simp only [Out.ok, Out.mk.injEq, Except.ok.injEq] at hst
      obtain ⟨hs1, hs2⟩ := hst
      subst hs2
      have hz : (CVec.zero + CVec.zero : CVec ℝ) = .zero := by ext <;> simp
      have hz2 : ∀ s : ℝ, ((CVec.zero : CVec ℝ) * s) = CVec.zero := by intro s; ext <;> simp
      have hz3 : ∀ s : ℝ, (s * (CVec.zero : CVec ℝ)) = CVec.zero := by intro s; ext <;> simp
      have hz4 : ∀ v : CVec ℝ, v + CVec.zero = v := by intro v; ext <;> simp
      have hmag : (l.setCache c).mag = l.mag := rfl
      simp only [hz, stochasticTorque_zero, hz2, hz3, hz4, hmag] at hs1
      -- the corrector
      unfold heunCorrect at hst2
      simp only [Nat.zero_add, hss] at hst2
      obtain ⟨f2, lb, hf2, hst2⟩ := Out.bind_eq_ok hst2
      obtain ⟨c2, hc2⟩ := (l.setCache c).llg_ok (t + dt) s.mNext (below (ss.map HeunStage.mNext) i)
        (above (ss.map HeunStage.mNext) i) hg
      rw [hc2] at hf2
      simp only [Out.ok, Out.mk.injEq, Except.ok.injEq] at hf2
      obtain ⟨hf2a, hf2b⟩ := hf2
      subst hf2b
      simp only [Out.ok, Out.mk.injEq, true_and] at hst2
      rw [← hst2]
      have horth1 : f.dot l.mag = 0 := by rw [← hf1]; exact llgV_dot _ _ _ _ _
      have horth2 : f2.dot s.mNext = 0 := by rw [← hf2a]; exact llgV_dot _ _ _ _ _
      subst hs1
      dsimp only at horth2 ⊢
      have hmag2 : ((l.setCache c).setCache c2).mag = l.mag := rfl
      show CVec.length (CVec.normalize _) = 1
      simp only [hz, stochasticTorque_zero, hz2, hz3, hz4, hmag2]
      apply normalize_unit_of_dot _ (l.mag + f * dt)
      have hm1 : l.mag.dot l.mag = 1 := by rw [← CVec.normSq_eq_dot]; exact (CVec.length_eq_one _).1 hu
      have hmf : l.mag.dot f = 0 := by rw [CVec.dot_comm]; exact horth1
      have hff : 0 ≤ f.dot f := by rw [← CVec.normSq_eq_dot]; exact f.normSq_nonneg
      have e : (l.mag + (0.5 * dt) * (f + f2)).dot (l.mag + f * dt) = 1 + (1 / 2) * dt ^ 2 * f.dot f := by
        rw [CVec.add_dot, CVec.mull_dot, CVec.add_dot f f2, horth2, CVec.dot_add, CVec.dot_add, CVec.dot_mulr,
          CVec.dot_mulr, horth1, hmf, hm1]
        simp only [Scalar.ofSci_real_true]
        ring
      rw [e]
      positivity

/-- C16 for RK4: the update cannot vanish when each of the four increments has length at most one. (The
increments are `k₁ … k₄` of the method; a vanishing update needs steps that turn m by more than a radian.) -/
theorem C16_rk4_unit (l l' : Layer ℝ) (t dt : ℝ) (b a f1 f2 f3 f4 : CVec ℝ) (c1 c2 c3 c4 : Layer ℝ)
    (h : l.rk4Step t dt b a = .ok () l') (hu : l.mag.length = 1)
    (e1 : l.llg t l.mag b a = .ok f1 c1) (e2 : l.llg (t + dt / 2) (l.mag + f1 * (dt / 2)) b a = .ok f2 c2)
    (e3 : l.llg (t + dt / 2) (l.mag + f2 * (dt / 2)) b a = .ok f3 c3)
    (e4 : l.llg (t + dt) (l.mag + f3 * dt) b a = .ok f4 c4)
    (b1 : (f1 * dt).length ≤ 1) (b2 : (f2 * dt).length ≤ 1) (b3 : (f3 * dt).length ≤ 1) (b4 : (f4 * dt).length ≤ 1) :
    l'.mag.length = 1 := by
  have hg : l.Guard := by
    by_contra hg
    obtain ⟨c, hc⟩ := l.llg_err t l.mag b a hg
    rw [hc] at e1; simp [Out.ok, Out.fail] at e1
  have val : ∀ s m f c, l.llg s m b a = .ok f c → f = l.llgV s m b a := by
    intro s m f c q
    obtain ⟨c', hc'⟩ := l.llg_ok s m b a hg
    rw [hc'] at q; simp only [Out.ok, Out.mk.injEq, Except.ok.injEq] at q; exact q.1.symm
  have v1 := val _ _ _ _ e1
  have v2 := val _ _ _ _ e2
  have v3 := val _ _ _ _ e3
  have v4 := val _ _ _ _ e4
  have o1 : f1.dot l.mag = 0 := by rw [v1]; exact llgV_dot _ _ _ _ _
  have o2 : f2.dot (l.mag + f1 * (dt / 2)) = 0 := by rw [v2]; exact llgV_dot _ _ _ _ _
  have o3 : f3.dot (l.mag + f2 * (dt / 2)) = 0 := by rw [v3]; exact llgV_dot _ _ _ _ _
  have o4 : f4.dot (l.mag + f3 * dt) = 0 := by rw [v4]; exact llgV_dot _ _ _ _ _
  rw [rk4Step_mag l l' t dt b a h]
  have ht : t + (0.5 : ℝ) * dt = t + dt / 2 := by norm_num; ring
  have hh : ∀ v : CVec ℝ, v * dt * (0.5 : ℝ) = v * (dt / 2) := by
    intro v; ext <;> simp <;> ring
  have hval : l.rk4V t dt b a = (rk4Combine l.mag (f1 * dt) (f2 * dt) (f3 * dt) (f4 * dt)).normalize := by
    unfold rk4V rk4U
    have ht' : t + (@OfScientific.ofScientific ℝ Scalar.instOfSci 5 true 1) * dt = t + dt / 2 := by
      simp only [Scalar.ofSci_real_true]; norm_num; ring
    have hh' : ∀ v : CVec ℝ, v * dt * (@OfScientific.ofScientific ℝ Scalar.instOfSci 5 true 1) = v * (dt / 2) := by
      intro v; ext <;> simp only [CVec.mulr_x, CVec.mulr_y, CVec.mulr_z, Scalar.ofSci_real_true] <;> norm_num <;> ring
    simp only [ht', hh', ← v1, ← v2, ← v3, ← v4]
  rw [hval]
  apply normalize_unit_of_dot _ l.mag
  have hm1 : l.mag.dot l.mag = 1 := by rw [← CVec.normSq_eq_dot]; exact (CVec.length_eq_one _).1 hu
  have lensq : ∀ v : CVec ℝ, v.length ≤ 1 → v.normSq ≤ 1 := by
    intro v hv
    rw [← CVec.length_sq]; have := v.length_nonneg; nlinarith
  have cs : ∀ u v : CVec ℝ, u.length ≤ 1 → v.length ≤ 1 → u.dot v ≤ 1 := by
    intro u v hu hv
    have h1 := lensq u hu; have h2 := lensq v hv
    have h3 := CVec.dot_sq_le u v
    have h4 := u.normSq_nonneg; have h5 := v.normSq_nonneg
    nlinarith
  have d12 := cs _ _ b1 b2
  have d23 := cs _ _ b2 b3
  have d34 := cs _ _ b3 b4
  have key : (rk4Combine l.mag (f1 * dt) (f2 * dt) (f3 * dt) (f4 * dt)).dot l.mag
      = 1 - ((f1 * dt).dot (f2 * dt) + (f2 * dt).dot (f3 * dt) + (f3 * dt).dot (f4 * dt)) / 6 := by
    simp only [CVec.dot_add, CVec.dot_mulr] at o2 o3 o4
    simp only [rk4Combine, CVec.dot, CVec.add_x, CVec.add_y, CVec.add_z, CVec.mulr_x, CVec.mulr_y, CVec.mulr_z,
      Scalar.ofSci_real_true] at *
    norm_num
    linear_combination hm1 + dt / 6 * o1 + dt / 3 * o2 + dt / 3 * o3 + dt / 6 * o4
  rw [key]
  linarith

/-! ### C17 -/

end Junction

namespace Layer

/-- C17. `setMagnetisation` stores the normalised vector and rejects exactly the zero vector. -/
theorem C17_setMagnetisation (l : Layer ℝ) (v : CVec ℝ) :
    (v = ⟨0, 0, 0⟩ → l.setMagnetisation v = .fail .zeroMag l) ∧
    (v ≠ ⟨0, 0, 0⟩ → ∃ l', l.setMagnetisation v = .ok () l' ∧ l'.mag.length = 1 ∧
      l'.mag = ⟨v.x / v.length, v.y / v.length, v.z / v.length⟩) := by
  have hz : (⟨0, 0, 0⟩ : CVec ℝ) = .zero := by ext <;> simp
  rw [hz]
  unfold setMagnetisation
  constructor
  · rintro rfl
    rw [if_pos (by simp [(CVec.length_eq_zero _).2])]
  · intro hv
    have hl : v.length ≠ 0 := fun h => hv ((CVec.length_eq_zero v).1 h)
    rw [if_neg (by simp [hl])]
    refine ⟨_, rfl, ?_, ?_⟩
    · exact (CVec.length_eq_one _).2 (CVec.normSq_normalize v hv)
    · exact CVec.normalize_of_ne v hv

/-- C17, the constructor half is false of the code: the constructor normalises its *parameter* after the member
was initialised, so a layer built with (0,0,2) starts with a magnetisation of length 2. -/
theorem C17_constructor_refuted :
    ∃ l : Layer ℝ, plain "free" ⟨0, 0, 2⟩ ⟨0, 0, 1⟩ 1 1 1 .zero (1 / 10) (fun _ => 0) (fun _ _ _ _ => 0) = .ok l ∧
      l.mag.length = 2 := by
  have h2 : (⟨0, 0, 2⟩ : CVec ℝ).length = 2 := by
    rw [CVec.length_eq]; simp only [CVec.normSq]; norm_num
    rw [show (4 : ℝ) = 2 ^ 2 by norm_num]; exact Real.sqrt_sq (by norm_num)
  have h1 : (⟨0, 0, 1⟩ : CVec ℝ).length = 1 := by
    rw [CVec.length_eq]; simp only [CVec.normSq]; norm_num
  refine ⟨(match plain "free" ⟨0, 0, 2⟩ ⟨0, 0, 1⟩ 1 1 1 .zero (1 / 10) (fun _ => 0) (fun _ _ _ _ => 0) with
    | .ok l => l | .error _ => demo), ?_⟩
  unfold plain mk'
  rw [if_neg (by simp [h2]), if_neg (by simp [h1])]
  exact ⟨rfl, h2⟩

/-- C17, what the constructors do guarantee: zero magnetisation and zero anisotropy axis are rejected, and the
magnetisation stored is the vector passed, so it is a unit vector exactly if the caller passed one. Missing:
the normalisation the claim asks for (`C17_constructor_refuted`). -/
theorem C17_constructors_partial (id : String) (mag anis : CVec ℝ) (Ms th surf : ℝ) (N : Tensor ℝ)
    (d a1 a2 a3 a4 a5 : ℝ) (g : Nat → ℝ) (s : Nat → Axis → Nat → Nat → ℝ) :
    (mag = ⟨0, 0, 0⟩ → mk' id mag anis Ms th surf N d a1 a2 a3 a4 a5 g s = .error .zeroMag) ∧
    (mag ≠ ⟨0, 0, 0⟩ → anis = ⟨0, 0, 0⟩ → mk' id mag anis Ms th surf N d a1 a2 a3 a4 a5 g s = .error .zeroAnis) ∧
    (mag ≠ ⟨0, 0, 0⟩ → anis ≠ ⟨0, 0, 0⟩ → ∃ l, mk' id mag anis Ms th surf N d a1 a2 a3 a4 a5 g s = .ok l ∧
      l.mag = mag ∧ l.anis = anis) := by
  have hz : (⟨0, 0, 0⟩ : CVec ℝ) = .zero := by ext <;> simp
  rw [hz]
  refine ⟨?_, ?_, ?_⟩
  · rintro rfl
    unfold mk'; rw [if_pos (by simp [(CVec.length_eq_zero _).2])]
  · rintro h rfl
    have hl : mag.length ≠ 0 := fun q => h ((CVec.length_eq_zero mag).1 q)
    unfold mk'; rw [if_neg (by simp [hl]), if_pos (by simp [(CVec.length_eq_zero _).2])]
  · intro h h'
    have hl : mag.length ≠ 0 := fun q => h ((CVec.length_eq_zero mag).1 q)
    have hl' : anis.length ≠ 0 := fun q => h' ((CVec.length_eq_zero anis).1 q)
    unfold mk'; rw [if_neg (by simp [hl]), if_neg (by simp [hl'])]
    exact ⟨_, rfl, rfl, rfl⟩

end Layer

namespace Junction

/-- C17 through the junction: on success every addressed layer holds the normalised vector; the zero vector
always raises. -/
theorem C17_setLayerMagnetisation (j k : Junction ℝ) (id : String) (v : CVec ℝ)
    (h : j.setLayerMagnetisation id v = .ok () k) :
    v ≠ ⟨0, 0, 0⟩ ∧ ∀ (i : Nat) (l l' : Layer ℝ), j.layers[i]? = some l → k.layers[i]? = some l' →
      (l.id = id ∨ id = "all") → l'.mag.length = 1 ∧ l'.mag = ⟨v.x / v.length, v.y / v.length, v.z / v.length⟩ := by
  have hv : v ≠ ⟨0, 0, 0⟩ := by
    intro hv
    unfold setLayerMagnetisation layerSetter at h
    have key : ∀ ls : List (Layer ℝ), ∀ ls', setLoop id (·.setMagnetisation v) ls ≠ .ok true ls' := by
      intro ls
      induction ls with
      | nil => intro ls' q; simp [setLoop, Out.ok] at q
      | cons l ls ih =>
        intro ls' q
        unfold setLoop at q
        split at q
        · rw [(Layer.C17_setMagnetisation l v).1 hv] at q
          simp [Out.ok, Out.fail] at q
        · rcases hq : setLoop id (·.setMagnetisation v) ls with ⟨_ | b, s⟩
          · rw [hq] at q; simp [Out.ok] at q
          · rw [hq] at q
            simp only [Out.ok, Out.mk.injEq, Except.ok.injEq] at q
            exact ih s (by rw [hq, q.1]; rfl)
    rcases hq : setLoop id (·.setMagnetisation v) j.layers with ⟨_ | b, s⟩
    · rw [hq] at h; simp [Out.ok, Out.fail] at h
    · cases b with
      | true => exact key _ s hq
      | false => rw [hq] at h; simp [Out.ok, Out.fail] at h
  refine ⟨hv, ?_⟩
  obtain ⟨-, hset⟩ : True ∧ ∀ l : Layer ℝ, ∃ l', l.setMagnetisation v = .ok () l' ∧ l'.mag.length = 1 ∧
      l'.mag = ⟨v.x / v.length, v.y / v.length, v.z / v.length⟩ := ⟨trivial, fun l => (Layer.C17_setMagnetisation l v).2 hv⟩
  have key : ∀ (ls ls' : List (Layer ℝ)) b, setLoop id (·.setMagnetisation v) ls = .ok b ls' →
      ∀ (i : Nat) (l l' : Layer ℝ), ls[i]? = some l → ls'[i]? = some l' → (l.id = id ∨ id = "all") →
      l'.mag.length = 1 ∧ l'.mag = ⟨v.x / v.length, v.y / v.length, v.z / v.length⟩ := by
    intro ls
    induction ls with
    | nil => intro ls' b _ i l l' hl; simp at hl
    | cons x ls ih =>
      intro ls' b q i l l' hl hl' hid
      unfold setLoop at q
      obtain ⟨x', hx, hx1, hx2⟩ := hset x
      rw [hx] at q
      rcases hq : setLoop id (·.setMagnetisation v) ls with ⟨_ | b', s⟩
      · rw [hq] at q; split at q <;> simp [Out.ok] at q
      · rw [hq] at q
        split at q
        · simp only [Out.ok, Out.mk.injEq, Except.ok.injEq] at q
          rw [← q.2] at hl'
          cases i with
          | zero => simp at hl'; rw [← hl']; exact ⟨hx1, hx2⟩
          | succ i => simp at hl hl'; exact ih s b' hq i l l' hl hl' hid
        · rename_i hno
          simp only [Out.ok, Out.mk.injEq, Except.ok.injEq] at q
          rw [← q.2] at hl'
          cases i with
          | zero => simp at hl; rw [hl] at hno; exact absurd hid hno
          | succ i => simp at hl hl'; exact ih s b' hq i l l' hl hl' hid
  intro i l l' hl hl' hid
  unfold setLayerMagnetisation layerSetter at h
  rcases hq : setLoop id (·.setMagnetisation v) j.layers with ⟨_ | b, s⟩
  · rw [hq] at h; simp [Out.ok, Out.fail] at h
  · cases b with
    | false => rw [hq] at h; simp [Out.ok, Out.fail] at h
    | true =>
      rw [hq] at h
      simp only [Out.ok, Out.mk.injEq, true_and] at h
      rw [← h] at hl'
      exact key _ s true hq i l l' hl hl' hid

/-- a one-layer junction for the examples -/
noncomputable def demoJ : Junction ℝ :=
  { mrMode := .NONE, layers := [Layer.demo], Rp := 0, Rap := 0, Rx0 := [], Ry0 := [], AMR_X := [], AMR_Y := [],
    SMR_X := [], SMR_Y := [], AHE := [], log := [], logLength := 0, Rtag := "R" }

/-- the hypotheses of the step theorems are met -/
example : ∃ k, demoJ.runStep .single 0 1 = .ok () k := by
  obtain ⟨c, hc⟩ := Layer.demo.rk4Step_ok 0 1 .zero .zero Layer.demo_guard
  unfold runStep runSingleLayerSolver
  simp only [demoJ, hc]
  rw [if_neg (by simp)]
  exact ⟨_, rfl⟩

example : ∃ k, demoJ.setLayerMagnetisation "free" ⟨0, 3, 4⟩ = .ok () k := by
  obtain ⟨l', h, -⟩ := (Layer.C17_setMagnetisation Layer.demo ⟨0, 3, 4⟩).2 (by
    intro h; rw [CVec.ext_iff] at h; norm_num at h)
  unfold setLayerMagnetisation layerSetter
  have : Layer.demo.id = "free" := rfl
  simp [demoJ, setLoop, this, h, Out.ok]

end Junction
