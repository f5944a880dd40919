import Verif.Props.Runs
import Verif.Props.Neighbours

/-! Closed forms of a solver step without noise, in any arithmetic. -/

set_option linter.unusedSectionVars false

namespace Junction
open Spec Layer
variable {T : Type} [Scalar T]

/-- the sum of the two draws of a layer without noise -/
def noNoise : CVec T := CVec.zero + CVec.zero

/-- Euler–Heun without noise, before normalisation -/
def eulerHeunV (l : Layer T) (t dt : T) (b a : CVec T) : CVec T :=
  l.mag + l.llgV t l.mag b a * dt
    + (0.5 : T) * (l.stochasticTorque l.mag noNoise
        + l.stochasticTorque (l.mag + l.stochasticTorque l.mag noNoise * Scalar.sqrt dt) noNoise) * Scalar.sqrt dt

/-- predictor of the Heun step -/
def heunNextV (l : Layer T) (t dt : T) (b a : CVec T) : CVec T :=
  l.mag + l.llgV t l.mag b a * dt + l.stochasticTorque l.mag noNoise * Scalar.sqrt dt

/-- predictors of all layers -/
def nexts (ls : List (Layer T)) (t dt : T) : List (CVec T) :=
  ls.mapIdx fun q l => heunNextV l t dt (magBelow ls q) (magAbove ls q)

/-- Heun step, before normalisation -/
def heunV (ls : List (Layer T)) (t dt : T) (q : Nat) (l : Layer T) : CVec T :=
  l.mag + (0.5 * dt) * (l.llgV t l.mag (magBelow ls q) (magAbove ls q)
      + l.llgV (t + dt) (heunNextV l t dt (magBelow ls q) (magAbove ls q)) (below (nexts ls t dt) q) (above (nexts ls t dt) q))
    + (0.5 : T) * (l.stochasticTorque l.mag noNoise
        + l.stochasticTorque (heunNextV l t dt (magBelow ls q) (magAbove ls q)) noNoise) * Scalar.sqrt dt

/-- the vector that is normalised and stored, for each runner -/
def stepU (r : Runner) (ls : List (Layer T)) (t dt : T) (q : Nat) (l : Layer T) : CVec T :=
  match r with
  | .single | .multi => rk4U (fun s m => l.llgV s m (magBelow ls q) (magAbove ls q)) t dt l.mag
  | .eulerHeun => eulerHeunV l t dt (magBelow ls q) (magAbove ls q)
  | .heun => heunV ls t dt q l

/-- helper -/
theorem rk4_moved {l l' : Layer T} {t dt : T} {b a : CVec T} (h : l.rk4Step t dt b a = .ok () l') :
    l.Guard ∧ ∃ c, l' = (l.setCache c).setMag (l.rk4V t dt b a) := by
  by_cases hg : l.Guard
  · obtain ⟨c, hc⟩ := l.rk4Step_ok t dt b a hg
    rw [hc] at h
    split at h
    · simp [Out.ok, Out.fail] at h
    · simp only [Out.ok, Out.mk.injEq, true_and] at h
      exact ⟨hg, c, h.symm⟩
  · obtain ⟨c, hc⟩ := l.rk4Step_err t dt b a hg
    rw [hc] at h
    simp [Out.ok, Out.fail] at h

/-- helper -/
theorem llg_moved {l l' : Layer T} {t : T} {m b a v : CVec T} (h : l.llg t m b a = .ok v l') :
    l.Guard ∧ v = l.llgV t m b a ∧ ∃ c, l' = l.setCache c := by
  by_cases hg : l.Guard
  · obtain ⟨c, hc⟩ := l.llg_ok t m b a hg
    rw [hc] at h
    simp only [Out.ok, Out.mk.injEq, Except.ok.injEq] at h
    exact ⟨hg, h.1.symm, c, h.2.symm⟩
  · obtain ⟨c, hc⟩ := l.llg_err t m b a hg
    rw [hc] at h
    simp [Out.ok, Out.fail] at h

/-- helper -/
theorem store_get : ∀ (ls : List (Layer T)) (ms : List (CVec T)) (i : Nat) (a : Layer T) (m : CVec T),
    ls[i]? = some a → ms[i]? = some m → (storeMags ls ms)[i]? = some (a.setMag m.normalize) := by
  intro ls
  induction ls with
  | nil => intro ms i a m ha; simp at ha
  | cons x ls ih =>
    intro ms i a m ha hm
    cases ms with
    | nil => simp at hm
    | cons y ms =>
      cases i with
      | zero => simp at ha hm; subst ha; subst hm; simp [storeMags]
      | succ i => simp at ha hm; simpa [storeMags] using ih ms i a m ha hm

theorem nexts_length (ls : List (Layer T)) (t dt : T) : (nexts ls t dt).length = ls.length := by simp [nexts]

theorem quiet_get {ls : List (Layer T)} (hq : ∀ l ∈ ls, ¬ Noisy l) {q : Nat} {l : Layer T} (hl : ls[q]? = some l) (t : T) :
    l.langevinVector t = .ok .zero l ∧ l.oneFVector = .ok .zero l :=
  noiseless_draws l t ((quiet_iff l).1 (hq l (List.mem_of_getElem? hl))).1 ((quiet_iff l).1 (hq l (List.mem_of_getElem? hl))).2

theorem heunPredict_moved {mags : List (CVec T)} {t dt : T} {i : Nat} {l l' : Layer T} {s : HeunStage T}
    (hq : ∀ (l : Layer T) t, l.temperatureSet = false → Scalar.eqb l.noiseParams.scaleNoise 0 = true →
      l.langevinVector t = .ok .zero l ∧ l.oneFVector = .ok .zero l)
    (h1 : l.temperatureSet = false) (h2 : Scalar.eqb l.noiseParams.scaleNoise 0 = true)
    (h : heunPredict mags t dt i l = .ok s l') :
    l.Guard ∧ s = ⟨l.llgV t l.mag (below mags i) (above mags i), l.stochasticTorque l.mag noNoise, noNoise,
      heunNextV l t dt (below mags i) (above mags i)⟩ ∧ ∃ c, l' = l.setCache c := by
  unfold heunPredict at h
  by_cases hg : l.Guard
  · obtain ⟨c, hc⟩ := l.llg_ok t l.mag (below mags i) (above mags i) hg
    obtain ⟨e1, e2⟩ := hq (l.setCache c) t h1 h2
    rw [hc] at h
    simp only [Out.bind_ok] at h
    rw [e1] at h
    simp only [Out.bind_ok] at h
    rw [e2] at h
    simp only [Out.bind_ok] at h
    simp only [Out.ok, Out.mk.injEq, Except.ok.injEq] at h
    exact ⟨hg, h.1.symm, c, h.2.symm⟩
  · obtain ⟨c, hc⟩ := l.llg_err t l.mag (below mags i) (above mags i) hg
    rw [hc] at h
    simp [Out.bind, Out.ok, Out.fail] at h

/-- A successful step without noise moves every layer to the normalised `stepU`. -/
theorem quiet_step {j k : Junction T} {r : Runner} {t dt : T} (hr : r = .single → j.layers.length = 1)
    (hq : ∀ l ∈ j.layers, ¬ Noisy l) (h : j.runStep r t dt = .ok () k) :
    k.layers.length = j.layers.length ∧ ∀ (q : Nat) (l : Layer T), j.layers[q]? = some l → l.Guard ∧
      ∃ c, k.layers[q]? = some ((l.setCache c).setMag (stepU r j.layers t dt q l).normalize) := by
  cases r with
  | single =>
    obtain ⟨l0, hl0⟩ := List.length_eq_one_iff.1 (hr rfl)
    unfold runStep runSingleLayerSolver at h
    dsimp only at h
    rw [hl0] at h
    dsimp only at h
    rcases hs : l0.rk4Step t dt .zero .zero with ⟨e | u, l'⟩
    · rw [hs] at h; simp [Out.ok] at h
    · rw [hs] at h
      simp only [Out.ok, Out.mk.injEq] at h
      obtain ⟨hg, c, hc⟩ := rk4_moved hs
      rw [← h.2, hl0]
      refine ⟨rfl, fun q l hl => ?_⟩
      cases q with
      | succ q => simp at hl
      | zero =>
        simp only [List.getElem?_cons_zero, Option.some.injEq] at hl
        subst hl
        exact ⟨hg, c, by simp only [List.getElem?_cons_zero, hc]; rfl⟩
  | multi =>
    obtain ⟨hlen, hs⟩ := C19_step j k t dt h
    refine ⟨hlen, fun q l hl => ?_⟩
    obtain ⟨l', hl', hst⟩ := hs q l hl
    obtain ⟨hg, c, hc⟩ := rk4_moved hst
    exact ⟨hg, c, by rw [hl', hc]; rfl⟩
  | eulerHeun =>
    unfold runStep eulerHeunSolverStep at h
    dsimp only at h
    rcases hs : Out.traverse (eulerHeunLayer (j.layers.map Layer.mag) t dt) 0 j.layers with ⟨_ | ms, ls⟩
    · rw [hs] at h; simp [Out.ok, Out.fail] at h
    rw [hs] at h
    simp only [Out.ok, Out.mk.injEq, true_and] at h
    obtain ⟨hm, hl, h3⟩ := Out.traverse_ok _ hs
    have hlen : k.layers.length = j.layers.length := by
      rw [← h, ← hl]
      have := (storeMags_same ls ms).length_eq
      exact this.symm
    refine ⟨hlen, fun q l hq' => ?_⟩
    obtain ⟨m, l', hm', hl', hst⟩ := h3 q l hq'
    obtain ⟨e1, e2⟩ := quiet_get hq hq' t
    rw [Nat.zero_add] at hst
    unfold eulerHeunLayer at hst
    rw [e1] at hst; simp only [Out.bind_ok] at hst
    rw [e2] at hst; simp only [Out.bind_ok] at hst
    rw [below_eq, above_eq] at hst
    rcases hf : l.llg t l.mag (magBelow j.layers q) (magAbove j.layers q) with ⟨e | v, l1⟩
    · rw [hf] at hst; simp [Out.bind, Out.ok] at hst
    · obtain ⟨hg, hv, c, hc⟩ := llg_moved hf
      rw [hf, ← Out.ok, Out.bind_ok] at hst
      subst hc
      simp only [Out.ok, Out.mk.injEq, Except.ok.injEq] at hst
      refine ⟨hg, c, ?_⟩
      rw [← h]
      have := store_get ls ms q l' m hl' hm'
      rw [← hst.1, ← hst.2, hv] at this
      exact this
  | heun =>
    unfold runStep heunSolverStep at h
    dsimp only at h
    rcases hs : Out.traverse (heunPredict (j.layers.map Layer.mag) t dt) 0 j.layers with ⟨_ | ss, ls⟩
    · rw [hs] at h; simp [Out.ok, Out.fail] at h
    rw [hs] at h
    dsimp only at h
    rcases hs2 : Out.traverse (heunCorrect ss t dt) 0 ls with ⟨_ | us, ls2⟩
    · rw [hs2] at h; simp [Out.ok, Out.fail] at h
    rw [hs2] at h
    simp only [Out.ok, Out.mk.injEq, true_and] at h
    obtain ⟨hm, hl, h3⟩ := Out.traverse_ok _ hs
    obtain ⟨hm2, hl2, h4⟩ := Out.traverse_ok _ hs2
    have stage : ∀ (q : Nat) (l : Layer T), j.layers[q]? = some l → l.Guard ∧ ∃ c, ls[q]? = some (l.setCache c) ∧
        ss[q]? = some ⟨l.llgV t l.mag (magBelow j.layers q) (magAbove j.layers q), l.stochasticTorque l.mag noNoise, noNoise,
          heunNextV l t dt (magBelow j.layers q) (magAbove j.layers q)⟩ := by
      intro q l hq'
      obtain ⟨s, l', hs', hl', hst⟩ := h3 q l hq'
      obtain ⟨q1, q2⟩ := (quiet_iff l).1 (hq l (List.mem_of_getElem? hq'))
      rw [Nat.zero_add] at hst
      obtain ⟨hg, he, c, hc⟩ := heunPredict_moved noiseless_draws q1 q2 hst
      rw [below_eq, above_eq] at he
      exact ⟨hg, c, by rw [hl', hc], by rw [hs', he]⟩
    have hnx : ss.map HeunStage.mNext = nexts j.layers t dt := by
      apply List.ext_getElem?
      intro q
      rw [List.getElem?_map, nexts, List.getElem?_mapIdx]
      rcases hq' : j.layers[q]? with _ | l
      · have : j.layers.length ≤ q := List.getElem?_eq_none_iff.1 hq'
        rw [List.getElem?_eq_none (by omega)]; rfl
      · obtain ⟨-, c, -, e⟩ := stage q l hq'
        rw [e]; rfl
    refine ⟨by rw [← h]; exact hl2.trans hl, fun q l hq' => ?_⟩
    obtain ⟨hg, c, e1, e2⟩ := stage q l hq'
    obtain ⟨u, l', -, hl', hst⟩ := h4 q _ e1
    refine ⟨hg, ?_⟩
    rw [Nat.zero_add] at hst
    unfold heunCorrect at hst
    rw [e2] at hst
    dsimp only at hst
    rw [hnx] at hst
    obtain ⟨c', hc'⟩ := (l.setCache c).llg_ok (t + dt) (heunNextV l t dt (magBelow j.layers q) (magAbove j.layers q))
      (below (nexts j.layers t dt) q) (above (nexts j.layers t dt) q) hg
    rw [hc', Out.bind_ok, llgV_cache] at hst
    simp only [Out.ok, Out.mk.injEq] at hst
    refine ⟨c', ?_⟩
    rw [← h, hl', ← hst.2]
    rfl
end Junction
