import Verif.Lemmas.Sim

/-! Helper lemmas on solver loops and whole runs. -/

set_option linter.unusedSectionVars false

namespace Junction
variable {T : Type} [Scalar T]

/-- the same junction around other layers -/
def withLayers (j : Junction T) (ls : List (Layer T)) : Junction T := { j with layers := ls }

@[simp] theorem withLayers_layers (j : Junction T) (ls : List (Layer T)) : (j.withLayers ls).layers = ls := rfl
theorem withLayers_self (j : Junction T) : j.withLayers j.layers = j := rfl

/-- a step touches nothing but the layers -/
theorem runStep_frame (j : Junction T) (r : Runner) (t dt : T) :
    (j.runStep r t dt).st = j.withLayers (j.runStep r t dt).st.layers := by
  cases r with
  | single =>
    unfold runStep runSingleLayerSolver
    dsimp only
    split
    · rfl
    · rfl
  | multi =>
    unfold runStep runMultiLayerSolver
    dsimp only
    split <;> rfl
  | heun =>
    unfold runStep heunSolverStep
    dsimp only
    split
    · rfl
    · split <;> rfl
  | eulerHeun =>
    unfold runStep eulerHeunSolverStep
    dsimp only
    split <;> rfl

theorem simEq : Sim T (Eq : Layer T → Layer T → Prop) Eq Eq where
  mag h := by rw [h]
  setMag h h' := by rw [h, h']
  llg := by
    rintro l _ t _ m _ b _ a _ rfl rfl rfl rfl rfl
    rcases h : l.llg t m b a with ⟨r, s⟩
    cases r with
    | ok x => exact .ok rfl rfl
    | error e => exact .fail rfl
  langevin := by
    rintro l _ t _ rfl rfl
    rcases h : l.langevinVector t with ⟨r, s⟩
    cases r with
    | ok x => exact .ok rfl rfl
    | error e => exact .fail rfl
  oneF := by
    rintro l _ rfl
    rcases h : l.oneFVector with ⟨r, s⟩
    cases r with
    | ok x => exact .ok rfl rfl
    | error e => exact .fail rfl
  stoch := by rintro l _ m _ w _ rfl rfl rfl; rfl
  zero := rfl
  add h h' := by rw [h, h']
  mul s h := by rw [h]
  lmul s h := by rw [h]
  div6 s h := by rw [h]
  nan h := by rw [h]
  time s h := by rw [h]

theorem forall₂_eq {α : Type} {as bs : List α} : List.Forall₂ Eq as bs ↔ as = bs := by
  constructor
  · intro h; induction h with
    | nil => rfl
    | cons h _ ih => rw [h, ih]
  · rintro rfl; induction as with
    | nil => exact .nil
    | cons a as ih => exact .cons rfl ih

/-- a step depends on nothing but the layers -/
theorem runStep_withLayers (j k : Junction T) (r : Runner) (t dt : T) (h : j.layers = k.layers) :
    OutRel (fun _ _ => True) (fun a b : Junction T => a.layers = b.layers) (j.runStep r t dt) (k.runStep r t dt) := by
  have := simEq.step r (t := t) (t' := t) dt rfl (forall₂_eq.2 h)
  generalize j.runStep r t dt = x at this
  generalize k.runStep r t dt = y at this
  cases this with
  | ok hq hr => exact .ok trivial (forall₂_eq.1 hr)
  | fail hr => exact .fail (forall₂_eq.1 hr)

/-- the number of layers is constant -/
theorem runStep_length (j : Junction T) (r : Runner) (t dt : T) :
    (j.runStep r t dt).st.layers.length = j.layers.length := by
  cases r with
  | single =>
    unfold runStep runSingleLayerSolver
    dsimp only
    cases hl : j.layers with
    | nil => simp [hl]
    | cons l ls => rfl
  | multi =>
    unfold runStep runMultiLayerSolver
    dsimp only
    have := Out.traverse_length (fun i l => l.rk4Step t dt ((magCopies j.layers).getD i .zero)
      ((magCopies j.layers).getD (i + 2) .zero)) 0 j.layers
    generalize Out.traverse _ 0 j.layers = x at this
    rcases x with ⟨r, ls⟩
    cases r <;> exact this
  | heun =>
    unfold runStep heunSolverStep
    dsimp only
    have := Out.traverse_length (heunPredict (j.layers.map Layer.mag) t dt) 0 j.layers
    generalize Out.traverse _ 0 j.layers = x at this
    rcases x with ⟨r, ls⟩
    cases r with
    | error e => exact this
    | ok ss =>
      have h2 := Out.traverse_length (heunCorrect ss t dt) 0 ls
      dsimp only at this ⊢
      generalize Out.traverse _ 0 ls = x at h2
      rcases x with ⟨r, ls'⟩
      cases r <;> exact h2.trans this
  | eulerHeun =>
    unfold runStep eulerHeunSolverStep
    dsimp only
    have := Out.traverse_length (eulerHeunLayer (j.layers.map Layer.mag) t dt) 0 j.layers
    generalize Out.traverse _ 0 j.layers = x at this
    rcases x with ⟨r, ls⟩
    cases r with
    | error e => exact this
    | ok ms =>
      have hs : ∀ (ls : List (Layer T)) ms, (storeMags ls ms).length = ls.length := by
        intro ls
        induction ls with
        | nil => intro ms; cases ms <;> rfl
        | cons l ls ih => intro ms; cases ms with
          | nil => rfl
          | cons m ms => simp [storeMags, ih]
      exact (hs ls ms).trans this

/-- The solver loop without logging. -/
def evolve (r : Runner) (dt : T) : Nat → Nat → Junction T → Out (Junction T) Unit
  | _, 0, j => .ok () j
  | i, n + 1, j => (j.runStep r (Scalar.lit (i : ℚ) * dt) dt).bind fun _ j => evolve r dt (i + 1) n j

/-- resistance vectors of a strip junction have the right lengths (guaranteed by the constructor) -/
def MrOk (j : Junction T) : Prop := j.mrMode = .STRIP →
  j.Rx0.length = j.layers.length ∧ j.Ry0.length = j.layers.length ∧ j.AMR_X.length = j.layers.length ∧
  j.AMR_Y.length = j.layers.length ∧ j.SMR_X.length = j.layers.length ∧ j.SMR_Y.length = j.layers.length ∧
  j.AHE.length = j.layers.length

theorem stripLoop_some (ls : List (Layer T)) (a b c d e f g : List T) (x y : T) (h1 : a.length = ls.length)
    (h2 : b.length = ls.length) (h3 : c.length = ls.length) (h4 : d.length = ls.length) (h5 : e.length = ls.length)
    (h6 : f.length = ls.length) (h7 : g.length = ls.length) : ∃ p, stripLoop ls a b c d e f g x y = some p := by
  induction ls generalizing a b c d e f g x y with
  | nil => exact ⟨_, rfl⟩
  | cons l ls ih =>
    obtain ⟨a0, a, rfl⟩ := List.exists_cons_of_length_eq_add_one h1
    obtain ⟨b0, b, rfl⟩ := List.exists_cons_of_length_eq_add_one h2
    obtain ⟨c0, c, rfl⟩ := List.exists_cons_of_length_eq_add_one h3
    obtain ⟨d0, d, rfl⟩ := List.exists_cons_of_length_eq_add_one h4
    obtain ⟨e0, e, rfl⟩ := List.exists_cons_of_length_eq_add_one h5
    obtain ⟨f0, f, rfl⟩ := List.exists_cons_of_length_eq_add_one h6
    obtain ⟨g0, g, rfl⟩ := List.exists_cons_of_length_eq_add_one h7
    simp only [List.length_cons, Nat.add_right_cancel_iff] at h1 h2 h3 h4 h5 h6 h7
    exact ih a b c d e f g _ _ h1 h2 h3 h4 h5 h6 h7

theorem mrEntries_ok (j : Junction T) (h : j.MrOk) : ∃ mr, j.mrEntries = .ok mr := by
  unfold mrEntries
  split
  · exact ⟨_, rfl⟩
  · exact ⟨_, rfl⟩
  · rename_i hm
    obtain ⟨h1, h2, h3, h4, h5, h6, h7⟩ := h hm
    obtain ⟨p, hp⟩ := stripLoop_some j.layers j.Rx0 j.Ry0 j.AMR_X j.SMR_X j.AMR_Y j.SMR_Y j.AHE 0 0 h1 h2 h3 h5 h4 h6 h7
    obtain ⟨px, py⟩ := p
    unfold stripMagnetoResistance
    rw [hp]
    exact ⟨_, rfl⟩
  · exact ⟨_, rfl⟩

/-- what logging and stepping never touch -/
def SameParams (j k : Junction T) : Prop :=
  j.mrMode = k.mrMode ∧ j.Rp = k.Rp ∧ j.Rap = k.Rap ∧ j.Rx0 = k.Rx0 ∧ j.Ry0 = k.Ry0 ∧ j.AMR_X = k.AMR_X ∧
  j.AMR_Y = k.AMR_Y ∧ j.SMR_X = k.SMR_X ∧ j.SMR_Y = k.SMR_Y ∧ j.AHE = k.AHE ∧ j.Rtag = k.Rtag ∧
  j.layers.length = k.layers.length

theorem SameParams.refl (j : Junction T) : j.SameParams j := ⟨rfl, rfl, rfl, rfl, rfl, rfl, rfl, rfl, rfl, rfl, rfl, rfl⟩
theorem SameParams.trans {j k l : Junction T} (h : j.SameParams k) (h' : k.SameParams l) : j.SameParams l := by
  obtain ⟨a1, a2, a3, a4, a5, a6, a7, a8, a9, a10, a11, a12⟩ := h
  obtain ⟨b1, b2, b3, b4, b5, b6, b7, b8, b9, b10, b11, b12⟩ := h'
  exact ⟨a1.trans b1, a2.trans b2, a3.trans b3, a4.trans b4, a5.trans b5, a6.trans b6, a7.trans b7, a8.trans b8,
    a9.trans b9, a10.trans b10, a11.trans b11, a12.trans b12⟩

theorem SameParams.mrOk {j k : Junction T} (h : j.SameParams k) (hj : j.MrOk) : k.MrOk := by
  obtain ⟨a1, a2, a3, a4, a5, a6, a7, a8, a9, a10, a11, a12⟩ := h
  intro hm
  have := hj (a1.trans hm)
  rw [← a4, ← a5, ← a6, ← a7, ← a8, ← a9, ← a10, ← a12]; exact this

theorem runStep_params (j : Junction T) (r : Runner) (t dt : T) : j.SameParams (j.runStep r t dt).st := by
  have := runStep_frame j r t dt
  have hl := runStep_length j r t dt
  rw [this] at hl ⊢
  exact ⟨rfl, rfl, rfl, rfl, rfl, rfl, rfl, rfl, rfl, rfl, rfl, hl.symm⟩

theorem log_layers (j : Junction T) (t : T) (en : Bool) : (j.logLayerParams t en).st.layers = j.layers := by
  unfold logLayerParams; dsimp only; split <;> rfl

theorem log_params (j : Junction T) (t : T) (en : Bool) : j.SameParams (j.logLayerParams t en).st := by
  unfold logLayerParams; dsimp only; split <;> exact ⟨rfl, rfl, rfl, rfl, rfl, rfl, rfl, rfl, rfl, rfl, rfl, rfl⟩

theorem log_ok (j : Junction T) (t : T) (en : Bool) (h : j.MrOk) :
    ∃ k, j.logLayerParams t en = .ok () k ∧ k.layers = j.layers ∧ j.SameParams k := by
  obtain ⟨mr, hm⟩ := mrEntries_ok j h
  refine ⟨(j.logLayerParams t en).st, ?_, log_layers j t en, log_params j t en⟩
  unfold logLayerParams; dsimp only; rw [hm]; rfl

theorem bind_unit_ok {σ : Type} {β : Type} {x : Out σ Unit} {f : Unit → σ → Out σ β} {b : β} {s : σ}
    (h : x.bind f = .ok b s) : x = .ok () x.st ∧ f () x.st = .ok b s := by
  obtain ⟨a, s', hx, hf⟩ := Out.bind_eq_ok h
  rw [hx]; exact ⟨rfl, hf⟩

theorem runLoop_params (r : Runner) (dt : T) (we : Nat) (en : Bool) (n i : Nat) (j : Junction T) :
    j.SameParams (runLoop r dt we en i n j).st := by
  induction n generalizing i j with
  | zero => exact .refl j
  | succ n ih =>
    unfold runLoop
    dsimp only
    have h1 := runStep_params j r (Scalar.lit (i : ℚ) * dt) dt
    generalize j.runStep r (Scalar.lit (i : ℚ) * dt) dt = x at h1
    rcases x with ⟨_ | _, k⟩
    · exact h1
    · simp only [Out.bind]
      split
      · exact h1
      · split
        · have h2 := log_params k (Scalar.lit (i : ℚ) * dt) en
          generalize k.logLayerParams (Scalar.lit (i : ℚ) * dt) en = y at h2
          rcases y with ⟨_ | _, k2⟩
          · exact h1.trans h2
          · exact (h1.trans h2).trans (ih _ _)
        · exact h1.trans (ih _ _)

/-- A successful run with logging is a successful run without. -/
theorem runLoop_evolve (r : Runner) (dt : T) (we : Nat) (en : Bool) {n i : Nat} {j j' k : Junction T}
    (h : runLoop r dt we en i n j = .ok () j') (hl : j.layers = k.layers) :
    ∃ k', evolve r dt i n k = .ok () k' ∧ j'.layers = k'.layers := by
  induction n generalizing i j k with
  | zero =>
    simp only [runLoop, Out.ok, Out.mk.injEq, true_and] at h
    exact ⟨k, rfl, by rw [← h, hl]⟩
  | succ n ih =>
    unfold runLoop at h
    obtain ⟨h1, h2⟩ := bind_unit_ok h
    obtain ⟨_, k1, hk1, -, hkl⟩ := (runStep_withLayers j k r (Scalar.lit (i : ℚ) * dt) dt hl).ok_left h1
    unfold evolve
    rw [hk1]
    simp only [Out.bind_ok]
    split at h2
    · simp [Out.ok, Out.fail] at h2
    · split at h2
      · obtain ⟨h3, h4⟩ := bind_unit_ok h2
        exact ih h4 ((log_layers _ _ _).trans hkl)
      · exact ih h2 hkl

/-- Conversely logging cannot make a run fail. -/
theorem evolve_runLoop (r : Runner) (dt : T) (we : Nat) (en : Bool) {n i : Nat} {j k k' : Junction T}
    (h : evolve r dt i n k = .ok () k') (hl : k.layers = j.layers) (hw : we ≠ 0) (hm : j.MrOk) :
    ∃ j', runLoop r dt we en i n j = .ok () j' ∧ k'.layers = j'.layers := by
  induction n generalizing i j k with
  | zero =>
    simp only [evolve, Out.ok, Out.mk.injEq, true_and] at h
    exact ⟨j, rfl, by rw [← h, hl]⟩
  | succ n ih =>
    unfold evolve at h
    obtain ⟨h1, h2⟩ := bind_unit_ok h
    obtain ⟨_, k1, hk1, -, hkl⟩ := (runStep_withLayers k j r (Scalar.lit (i : ℚ) * dt) dt hl).ok_left h1
    have hp := (runStep_params j r (Scalar.lit (i : ℚ) * dt) dt)
    rw [hk1] at hp
    unfold runLoop
    dsimp only
    rw [hk1]
    simp only [Out.bind_ok, if_neg hw]
    split
    · obtain ⟨k2, hk2, hl2, hp2⟩ := log_ok k1 (Scalar.lit (i : ℚ) * dt) en (hp.mrOk hm)
      rw [hk2]
      exact ih h2 (hkl.trans hl2.symm) ((hp.trans hp2).mrOk hm)
    · exact ih h2 hkl (hp.mrOk hm)

/-- Two successful stretches of the loop add up. -/
theorem evolve_add (r : Runner) (dt : T) (n m i : Nat) (j : Junction T) :
    evolve r dt i (n + m) j = (evolve r dt i n j).bind fun _ k => evolve r dt (i + n) m k := by
  induction n generalizing i j with
  | zero => simp [evolve]
  | succ n ih =>
    rw [show n + 1 + m = n + m + 1 by ring]
    simp only [evolve]
    rcases j.runStep r (Scalar.lit (i : ℚ) * dt) dt with ⟨_ | _, k⟩
    · rfl
    · simp only [Out.bind]
      rw [ih, show i + 1 + n = i + (n + 1) by ring]
      rfl

end Junction

namespace Sim
open Junction
variable {T : Type} [Scalar T] {R : Layer T → Layer T → Prop} {V : CVec T → CVec T → Prop} {TT : T → T → Prop}

/-- Loops on related junctions, possibly started at different iteration numbers. -/
theorem evolve (S : Sim T R V TT) (r : Runner) (dt : T) {i i' : Nat}
    (ht : ∀ k : Nat, TT (Scalar.lit ((i + k : Nat) : ℚ) * dt) (Scalar.lit ((i' + k : Nat) : ℚ) * dt)) (n : Nat)
    {j j' : Junction T} (h : List.Forall₂ R j.layers j'.layers) :
    OutRel (fun _ _ => True) (fun k k' : Junction T => List.Forall₂ R k.layers k'.layers)
      (Junction.evolve r dt i n j) (Junction.evolve r dt i' n j') := by
  induction n generalizing i i' j j' with
  | zero => exact .ok trivial h
  | succ n ih =>
    unfold Junction.evolve
    refine (S.step r dt (by simpa using ht 0) h).bind fun _ _ k k' _ hk => ?_
    refine ih (fun q => ?_) hk
    have := ht (q + 1)
    rwa [show i + 1 + q = i + (q + 1) by ring, show i' + 1 + q = i' + (q + 1) by ring]

/-- Choosing the solver on related junctions. -/
theorem solver {R : Layer T → Layer T → Prop} (h1 : ∀ l l', R l l' → l.temperatureSet = l'.temperatureSet)
    (h2 : ∀ l l', R l l' → Scalar.eqb l.noiseParams.scaleNoise 0 = Scalar.eqb l'.noiseParams.scaleNoise 0)
    (h3 : ∀ l l' n, R l l' → Scalar.eqb l.noiseParams.scaleNoise 0 = false →
      OutRel (fun _ _ => True) R (l.createBufferedAlphaNoise n) (l'.createBufferedAlphaNoise n))
    {j j' : Junction T} (h : List.Forall₂ R j.layers j'.layers) (mode : SolverMode) (n : Nat) :
    OutRel Eq (fun k k' : Junction T => List.Forall₂ R k.layers k'.layers) (j.getSolver mode n) (j'.getSolver mode n) := by
  have key : ∀ ls ls', List.Forall₂ R ls ls' → ∀ mode, OutRel Eq (List.Forall₂ R) (solverLoop n mode ls) (solverLoop n mode ls') := by
    intro ls ls' h
    induction h with
    | nil => intro mode; exact .ok rfl .nil
    | @cons l l' ls ls' hab hr ih =>
      intro mode
      unfold solverLoop
      dsimp only
      rw [h1 l l' hab, ← h2 l l' hab]
      by_cases hs : Scalar.eqb l.noiseParams.scaleNoise 0 = true
      · rw [if_pos hs, if_pos hs]
        have := ih (if l'.temperatureSet = true then noisyMode mode else mode)
        generalize solverLoop n _ ls = x at this
        generalize solverLoop n _ ls' = y at this
        cases this with
        | ok hq hr => exact .ok hq (.cons hab hr)
        | fail hr => exact .fail (.cons hab hr)
      · rw [if_neg hs, if_neg hs]
        have hc := h3 l l' n hab (by simpa using hs)
        have := ih (noisyMode (if l'.temperatureSet = true then noisyMode mode else mode))
        generalize solverLoop n _ ls = x at this
        generalize solverLoop n _ ls' = y at this
        generalize l.createBufferedAlphaNoise n = z at hc
        generalize l'.createBufferedAlphaNoise n = w at hc
        cases hc with
        | fail hr0 => exact .fail (.cons hr0 hr)
        | ok hq0 hr0 =>
          cases this with
          | ok hq hr => exact .ok hq (.cons hr0 hr)
          | fail hr => exact .fail (.cons hr0 hr)
  have := key _ _ h mode
  unfold getSolver
  rw [show j.layerNo = j'.layerNo from h.length_eq]
  generalize solverLoop n _ j.layers = x at this
  generalize solverLoop n _ j'.layers = y at this
  cases this with
  | ok hq hr => cases hq; exact .ok rfl hr
  | fail hr => exact .fail hr

/-- how a whole run decomposes -/
theorem run_inv {j k : Junction T} {total dt wf : T} {en : Bool} {mode : SolverMode}
    (h : j.runSimulation total dt wf en mode = .ok () k) :
    ∃ N W r m j1, Scalar.ltb wf dt = false ∧ Scalar.toUInt (total / dt) = some N ∧
      Scalar.toUInt (wf / dt) = some W ∧ j.getSolver mode N = .ok (r, m) j1 ∧ runLoop r dt W en 0 N j1 = .ok () k := by
  unfold runSimulation at h
  split at h
  · simp [Out.ok, Out.fail] at h
  · rename_i hw
    split at h
    · rename_i N W hN hW
      obtain ⟨⟨r, m⟩, j1, hg, hl⟩ := Out.bind_eq_ok h
      exact ⟨N, W, r, m, j1, by simpa using hw, hN, hW, hg, hl⟩
    · simp [Out.ok, Out.fail] at h

theorem solverLoop_length (n : Nat) (mode : SolverMode) (ls : List (Layer T)) :
    (solverLoop n mode ls).st.length = ls.length := by
  induction ls generalizing mode with
  | nil => rfl
  | cons l ls ih =>
    unfold solverLoop
    dsimp only
    split
    · simp [ih]
    · split
      · simp
      · simp [ih]

theorem getSolver_params (j : Junction T) (mode : SolverMode) (n : Nat) : j.SameParams (j.getSolver mode n).st := by
  have := solverLoop_length n mode j.layers
  unfold getSolver
  generalize solverLoop n mode j.layers = x at this
  rcases x with ⟨_ | _, ls⟩ <;> exact ⟨rfl, rfl, rfl, rfl, rfl, rfl, rfl, rfl, rfl, rfl, rfl, this.symm⟩

/-- Whole runs on related junctions. -/
theorem run (S : Sim T R V TT) (hrefl : ∀ t, TT t t)
    (h1 : ∀ l l', R l l' → l.temperatureSet = l'.temperatureSet)
    (h2 : ∀ l l', R l l' → Scalar.eqb l.noiseParams.scaleNoise 0 = Scalar.eqb l'.noiseParams.scaleNoise 0)
    (h3 : ∀ l l' n, R l l' → Scalar.eqb l.noiseParams.scaleNoise 0 = false →
      OutRel (fun _ _ => True) R (l.createBufferedAlphaNoise n) (l'.createBufferedAlphaNoise n))
    {j j' k : Junction T} (h : List.Forall₂ R j.layers j'.layers) (hm : j'.MrOk) {total dt wf : T} {en : Bool}
    {mode : SolverMode} (hk : j.runSimulation total dt wf en mode = .ok () k) :
    ∃ k', j'.runSimulation total dt wf en mode = .ok () k' ∧ List.Forall₂ R k.layers k'.layers ∧ j'.SameParams k' := by
  obtain ⟨N, W, r, m, j1, hw, hN, hW, hg, hl⟩ := run_inv hk
  obtain ⟨⟨r', m'⟩, j1', hg', hq, hj1⟩ := (Sim.solver h1 h2 h3 h mode N).ok_left hg
  cases hq
  have hp' := getSolver_params j' mode N
  rw [hg'] at hp'
  have hm1 := hp'.mrOk hm
  unfold runSimulation
  rw [if_neg (by simp [hw]), hN, hW]
  simp only [hg', Out.bind_ok]
  by_cases hz : W = 0
  · -- logging modulus zero: only the empty loop succeeds
    cases N with
    | zero =>
      simp only [runLoop, Out.ok, Out.mk.injEq, true_and] at hl ⊢
      exact ⟨j1', rfl, hl ▸ hj1, hp'⟩
    | succ N =>
      unfold runLoop at hl
      obtain ⟨-, h4⟩ := bind_unit_ok hl
      rw [if_pos hz] at h4
      simp [Out.ok, Out.fail] at h4
  · obtain ⟨e, he, hle⟩ := runLoop_evolve r dt W en hl rfl
    obtain ⟨_, e', he', -, hee⟩ := (S.evolve r dt (i := 0) (i' := 0) (fun _ => hrefl _) N hj1).ok_left he
    obtain ⟨k', hk', hle'⟩ := evolve_runLoop r dt W en he' rfl hz hm1
    refine ⟨k', hk', by rw [hle, ← hle']; exact hee, ?_⟩
    have := runLoop_params r dt W en N 0 j1'
    rw [hk'] at this
    exact hp'.trans this

end Sim
