import Verif.Spec.Llgb
import Verif.Lemmas.Log
import Verif.Lemmas.Keys

/-! Helper lemmas on LLGB layers and junctions. -/

set_option linter.unusedSectionVars false

namespace LLGBLayer
variable {T : Type} [Scalar T]

theorem heff_fst (l : LLGBLayer T) (t : T) (m : CVec T) : (l.calculateHeff t m).1 =
    l.anis * (l.anisotropyDriver.value t * l.anis.dot m) + l.externalFieldDriver.value t + l.getLongitudinal t m := rfl

theorem llg_fst (l : LLGBLayer T) (t : T) (m : CVec T) : (l.calculateLLG t m).1 =
    (Const.gyro / (1 + Scalar.powi l.damping 2)) * ((-1 : T) * m.cross (l.calculateHeff t m).1 -
    (l.getAlphaPerpendicular t).1 * m.cross (m.cross (l.calculateHeff t m).1) * Scalar.powi (1 / m.length) 2 +
    m.dot (l.calculateHeff t m).1 * m * (l.getAlphaParallel t).1 * Scalar.powi (1 / m.length) 2) := rfl

@[simp] theorem llg_id (l : LLGBLayer T) (t : T) (m : CVec T) : (l.calculateLLG t m).2.id = l.id := rfl
@[simp] theorem llg_me (l : LLGBLayer T) (t : T) (m : CVec T) : (l.calculateLLG t m).2.me = l.me := rfl
@[simp] theorem llg_susc (l : LLGBLayer T) (t : T) (m : CVec T) : (l.calculateLLG t m).2.susceptibility = l.susceptibility := rfl
@[simp] theorem llg_mag (l : LLGBLayer T) (t : T) (m : CVec T) : (l.calculateLLG t m).2.mag = l.mag := rfl
@[simp] theorem nonad_id (l : LLGBLayer T) (t : T) : (l.nonadiabaticThermalField t).2.id = l.id := rfl
@[simp] theorem nonad_me (l : LLGBLayer T) (t : T) : (l.nonadiabaticThermalField t).2.me = l.me := rfl
@[simp] theorem nonad_susc (l : LLGBLayer T) (t : T) : (l.nonadiabaticThermalField t).2.susceptibility = l.susceptibility := rfl
@[simp] theorem nonad_mag (l : LLGBLayer T) (t : T) : (l.nonadiabaticThermalField t).2.mag = l.mag := rfl
@[simp] theorem ad_id (l : LLGBLayer T) (t : T) : (l.adiabaticThermalField t).2.id = l.id := rfl
@[simp] theorem ad_me (l : LLGBLayer T) (t : T) : (l.adiabaticThermalField t).2.me = l.me := rfl
@[simp] theorem ad_susc (l : LLGBLayer T) (t : T) : (l.adiabaticThermalField t).2.susceptibility = l.susceptibility := rfl
@[simp] theorem ad_mag (l : LLGBLayer T) (t : T) : (l.adiabaticThermalField t).2.mag = l.mag := rfl
@[simp] theorem stoch_id (l : LLGBLayer T) (m : CVec T) (t : T) (a b : CVec T) : (l.stochasticTorque m t a b).2.id = l.id := rfl
@[simp] theorem stoch_me (l : LLGBLayer T) (m : CVec T) (t : T) (a b : CVec T) : (l.stochasticTorque m t a b).2.me = l.me := rfl
@[simp] theorem stoch_susc (l : LLGBLayer T) (m : CVec T) (t : T) (a b : CVec T) : (l.stochasticTorque m t a b).2.susceptibility = l.susceptibility := rfl
@[simp] theorem stoch_mag (l : LLGBLayer T) (m : CVec T) (t : T) (a b : CVec T) : (l.stochasticTorque m t a b).2.mag = l.mag := rfl

open Spec

theorem llg_reseed (l : LLGBLayer T) (a : Nat → T) (p : Nat) (b : Nat → T) (q : Nat) (t : T) (m : CVec T) :
    (reseed l a p b q).calculateLLG t m = ((l.calculateLLG t m).1, reseed (l.calculateLLG t m).2 a p b q) := rfl
theorem stoch_reseed (l : LLGBLayer T) (a : Nat → T) (p : Nat) (b : Nat → T) (q : Nat) (m : CVec T) (t : T) (x y : CVec T) :
    (reseed l a p b q).stochasticTorque m t x y = ((l.stochasticTorque m t x y).1, reseed (l.stochasticTorque m t x y).2 a p b q) := rfl
theorem nonad_reseed (l : LLGBLayer T) (a : Nat → T) (p : Nat) (b : Nat → T) (q : Nat) (t : T) :
    ((reseed l a p b q).nonadiabaticThermalField t).2 = reseed (l.nonadiabaticThermalField t).2 a (p + 3) b q := rfl
theorem ad_reseed (l : LLGBLayer T) (a : Nat → T) (p : Nat) (b : Nat → T) (q : Nat) (t : T) :
    ((reseed l a p b q).adiabaticThermalField t).2 = reseed (l.adiabaticThermalField t).2 a p b (q + 3) := rfl
theorem reseed_mag (l : LLGBLayer T) (a : Nat → T) (p : Nat) (b : Nat → T) (q : Nat) : (reseed l a p b q).mag = l.mag := rfl

end LLGBLayer

namespace LLGBJunction
open Spec
variable {T : Type} [Scalar T]

/-- one step on a single layer -/
def stepLayer (r : Runner) (t dt : T) (l : LLGBLayer T) : LLGBLayer T :=
  match r with
  | .heun => heunCorrect t dt (heunPredict t dt l).1 (heunPredict t dt l).2
  | .eulerHeun => { (eulerHeunLayer t dt l).2 with mag := (eulerHeunLayer t dt l).1 }

theorem runStep_eq (j : LLGBJunction T) (r : Runner) (t dt : T) :
    j.runStep r t dt = { j with layers := j.layers.map (stepLayer r t dt) } := by
  cases r <;> simp only [runStep, heunSolverStep, eulerHeunSolverStep, List.map_map] <;> rfl

theorem stepLayer_id (r : Runner) (t dt : T) (l : LLGBLayer T) : (stepLayer r t dt l).id = l.id := by cases r <;> simp [stepLayer, heunCorrect, heunPredict, eulerHeunLayer]
theorem stepLayer_me (r : Runner) (t dt : T) (l : LLGBLayer T) : (stepLayer r t dt l).me = l.me := by cases r <;> simp [stepLayer, heunCorrect, heunPredict, eulerHeunLayer]
theorem stepLayer_susc (r : Runner) (t dt : T) (l : LLGBLayer T) : (stepLayer r t dt l).susceptibility = l.susceptibility := by
  cases r <;> simp [stepLayer, heunCorrect, heunPredict, eulerHeunLayer]

/-- one iteration without logging -/
def tick (r : Runner) (dt : T) (j : LLGBJunction T) : LLGBJunction T :=
  { j with layers := j.layers.map (stepLayer r (j.time + dt) dt), time := j.time + dt }

theorem loop_succ (r : Runner) (dt : T) (we i n : Nat) (j : LLGBJunction T) : loop r dt we i (n + 1) j =
    if we = 0 then .fail .ub (tick r dt j)
    else if i % we = 0 then loop r dt we (i + 1) n ((tick r dt j).logLayerParams (j.time + dt))
    else loop r dt we (i + 1) n (tick r dt j) := by
  simp only [loop, runStep_eq]; rfl

/-- layers and clock after `n` iterations, without the log -/
def evolve (r : Runner) (dt : T) : Nat → LLGBJunction T → LLGBJunction T
  | 0, j => j
  | n + 1, j => evolve r dt n (tick r dt j)

theorem evolve_add (r : Runner) (dt : T) (n m : Nat) (j : LLGBJunction T) : evolve r dt (n + m) j = evolve r dt m (evolve r dt n j) := by
  induction n generalizing j with
  | zero => simp [evolve]
  | succ n ih => rw [Nat.succ_add, evolve, evolve, ih]

/-- same layers and clock -/
def Core (j k : LLGBJunction T) : Prop := k.layers = j.layers ∧ k.time = j.time

theorem Core.tick {j k : LLGBJunction T} (h : Core j k) (r : Runner) (dt : T) : Core (tick r dt j) (LLGBJunction.tick r dt k) := by
  obtain ⟨h1, h2⟩ := h
  constructor <;> simp only [LLGBJunction.tick, h1, h2]

theorem Core.evolve {j k : LLGBJunction T} (h : Core j k) (r : Runner) (dt : T) (n : Nat) :
    Core (evolve r dt n j) (LLGBJunction.evolve r dt n k) := by
  induction n generalizing j k with
  | zero => exact h
  | succ n ih => exact ih (h.tick r dt)

theorem loop_core (r : Runner) (dt : T) (we : Nat) (hw : we ≠ 0) (n i : Nat) (j : LLGBJunction T) :
    ∃ k, loop r dt we i n j = .ok () k ∧ Core (evolve r dt n j) k := by
  induction n generalizing i j with
  | zero => exact ⟨j, rfl, rfl, rfl⟩
  | succ n ih =>
    rw [loop_succ, if_neg hw]
    split
    · obtain ⟨k, h1, h2⟩ := ih (i + 1) ((tick r dt j).logLayerParams (j.time + dt))
      refine ⟨k, h1, ?_⟩
      have : Core (evolve r dt n (tick r dt j)) (evolve r dt n ((tick r dt j).logLayerParams (j.time + dt))) :=
        Core.evolve (j := tick r dt j) (k := (tick r dt j).logLayerParams (j.time + dt)) ⟨rfl, rfl⟩ r dt n
      exact ⟨h2.1.trans this.1, h2.2.trans this.2⟩
    · exact ih (i + 1) (tick r dt j)

theorem run_inv {j k : LLGBJunction T} {total dt wf : T} {mode : SolverMode} (h : j.runSimulation total dt wf mode = .ok () k) :
    Scalar.ltb wf dt = false ∧ ∃ n w r, Stack.castUnsigned (total / dt) = some n ∧ Stack.castUnsigned (wf / dt) = some w ∧
      getSolver mode = .ok r ∧ loop r dt w 0 n j = .ok () k := by
  unfold runSimulation at h
  split at h
  · simp [Out.ok, Out.fail] at h
  · rename_i h0
    refine ⟨by simpa using h0, ?_⟩
    split at h
    · rename_i n w hn hw
      split at h
      · simp [Out.ok, Out.fail] at h
      · rename_i r hr; exact ⟨n, w, r, hn, hw, hr, h⟩
    · simp [Out.ok, Out.fail] at h

theorem run_of {j : LLGBJunction T} {total dt wf : T} {mode : SolverMode} {n w : Nat} {r : Runner} (h0 : Scalar.ltb wf dt = false)
    (hn : Stack.castUnsigned (total / dt) = some n) (hw : Stack.castUnsigned (wf / dt) = some w) (hr : getSolver mode = .ok r) :
    j.runSimulation total dt wf mode = loop r dt w 0 n j := by
  unfold runSimulation
  rw [h0, hn, hw, hr]; rfl

end LLGBJunction

namespace LLGBLayer
variable {T : Type} [Scalar T]

/-- everything but the magnetisation, the recorded values and the positions in the noise streams is the same -/
def Frame (l l' : LLGBLayer T) : Prop :=
  ∃ m a b k t p q, l' = { l with mag := m, alphaPerpLog := a, alphaParLog := b, KLog := k, TLog := t, posA := p, posB := q }

theorem Frame.trans {l l' l'' : LLGBLayer T} (h : Frame l l') (h' : Frame l' l'') : Frame l l'' := by
  obtain ⟨_, _, _, _, _, _, _, rfl⟩ := h
  obtain ⟨_, _, _, _, _, _, _, rfl⟩ := h'
  exact ⟨_, _, _, _, _, _, _, rfl⟩

theorem frame_llg (l : LLGBLayer T) (t : T) (m : CVec T) : Frame l (l.calculateLLG t m).2 := ⟨_, _, _, _, _, _, _, rfl⟩
theorem frame_nonad (l : LLGBLayer T) (t : T) : Frame l (l.nonadiabaticThermalField t).2 := ⟨_, _, _, _, _, _, _, rfl⟩
theorem frame_ad (l : LLGBLayer T) (t : T) : Frame l (l.adiabaticThermalField t).2 := ⟨_, _, _, _, _, _, _, rfl⟩
theorem frame_stoch (l : LLGBLayer T) (m : CVec T) (t : T) (a b : CVec T) : Frame l (l.stochasticTorque m t a b).2 :=
  ⟨_, _, _, _, _, _, _, rfl⟩
theorem frame_mag (l : LLGBLayer T) (m : CVec T) : Frame l { l with mag := m } := ⟨_, _, _, _, _, _, _, rfl⟩

theorem frame_step (l : LLGBLayer T) (r : LLGBJunction.Runner) (t dt : T) : Frame l (LLGBJunction.stepLayer r t dt l) := by
  cases r
  · simp only [LLGBJunction.stepLayer, LLGBJunction.heunCorrect, LLGBJunction.heunPredict]
    refine Frame.trans ?_ (frame_mag _ _)
    refine Frame.trans ?_ (frame_stoch _ _ _ _ _)
    refine Frame.trans ?_ (frame_llg _ _ _)
    refine Frame.trans ?_ (frame_stoch _ _ _ _ _)
    refine Frame.trans ?_ (frame_ad _ _)
    exact (frame_llg l _ _).trans (frame_nonad _ _)
  · simp only [LLGBJunction.stepLayer, LLGBJunction.eulerHeunLayer]
    refine Frame.trans ?_ (frame_mag _ _)
    refine Frame.trans ?_ (frame_stoch _ _ _ _ _)
    refine Frame.trans ?_ (frame_stoch _ _ _ _ _)
    refine Frame.trans ?_ (frame_llg _ _ _)
    exact (frame_nonad l _).trans (frame_ad _ _)

end LLGBLayer
