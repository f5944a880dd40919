import Verif.Lemmas.Run
import Verif.Lemmas.Log

/-! Relational reasoning about whole runs including the log. Helper lemmas only. -/

set_option linter.unusedSectionVars false

namespace Junction
variable {T : Type} [Scalar T]

/-- related layers inside the same junction: parameters and log are equal -/
def Around (R : Layer T → Layer T → Prop) (k k' : Junction T) : Prop :=
  List.Forall₂ R k.layers k'.layers ∧ k' = k.withLayers k'.layers

theorem stripLoop_congr {ls ls' : List (Layer T)} (h : List.Forall₂ (fun l l' => l'.mag = l.mag) ls ls')
    (a b c d e f g : List T) (x y : T) : stripLoop ls' a b c d e f g x y = stripLoop ls a b c d e f g x y := by
  induction h generalizing a b c d e f g x y with
  | nil => simp only [stripLoop]
  | cons hab _ ih =>
    match a, b, c, d, e, f, g with
    | [], _, _, _, _, _, _ => simp [stripLoop]
    | _ :: _, [], _, _, _, _, _ => simp [stripLoop]
    | _ :: _, _ :: _, [], _, _, _, _ => simp [stripLoop]
    | _ :: _, _ :: _, _ :: _, [], _, _, _ => simp [stripLoop]
    | _ :: _, _ :: _, _ :: _, _ :: _, [], _, _ => simp [stripLoop]
    | _ :: _, _ :: _, _ :: _, _ :: _, _ :: _, [], _ => simp [stripLoop]
    | _ :: _, _ :: _, _ :: _, _ :: _, _ :: _, _ :: _, [] => simp [stripLoop]
    | _ :: _, _ :: _, _ :: _, _ :: _, _ :: _, _ :: _, _ :: _ => simp only [stripLoop, hab, ih]

theorem mrEntries_congr (j : Junction T) {ls : List (Layer T)}
    (h : List.Forall₂ (fun l l' => l'.mag = l.mag ∧ l'.referenceLayer = l.referenceLayer) j.layers ls) :
    (j.withLayers ls).mrEntries = j.mrEntries := by
  have hs : (j.withLayers ls).stripMagnetoResistance = j.stripMagnetoResistance := by
    unfold stripMagnetoResistance withLayers
    dsimp only
    rw [stripLoop_congr (h.imp fun _ _ q => q.1)]
  have hl : (j.withLayers ls).layers = ls := rfl
  have hc : ∀ x, (j.withLayers ls).calculateMagnetoresistance x = j.calculateMagnetoresistance x := fun x => rfl
  have hm : (j.withLayers ls).mrMode = j.mrMode := rfl
  have hr : (j.withLayers ls).Rtag = j.Rtag := rfl
  unfold mrEntries
  rw [hl, hs, hm, hr]
  simp only [hc]
  generalize j.layers = ks at h
  cases j.mrMode with
  | NONE => rfl
  | STRIP => rfl
  | CLASSIC =>
    rcases h with _ | ⟨h1, h⟩
    · rfl
    · rcases h with _ | ⟨h2, h⟩
      · simp only [h1.1, h1.2]
      · simp only [h1.1, h2.1]

theorem log_congr {R : Layer T → Layer T → Prop} {en : Bool} (hE : ∀ l l', R l l' → layerEntries l' en = layerEntries l en)
    (hM : ∀ l l', R l l' → l'.mag = l.mag ∧ l'.referenceLayer = l.referenceLayer) {k k' : Junction T} (h : Around R k k') (t : T) :
    OutRel Eq (Around R) (k.logLayerParams t en) (k'.logLayerParams t en) := by
  obtain ⟨h1, h2⟩ := h
  have hm : k'.mrEntries = k.mrEntries := by
    rw [h2]; exact mrEntries_congr k (h1.imp fun _ _ => hM _ _)
  have hf : k'.layers.flatMap (layerEntries · en) = k.layers.flatMap (layerEntries · en) := by
    clear h2 hm
    generalize k.layers = a at h1
    generalize k'.layers = b at h1
    induction h1 with
    | nil => rfl
    | cons hab _ ih => simp only [List.flatMap_cons, hE _ _ hab, ih]
  have hlog : k'.log = k.log := by rw [h2]; rfl
  have hlen : k'.logLength = k.logLength := by rw [h2]; rfl
  unfold logLayerParams
  dsimp only
  rw [hm, hf, hlog, hlen]
  cases k.mrEntries with
  | error e => exact .fail ⟨h1, by rw [h2]; rfl⟩
  | ok mr => exact .ok rfl ⟨h1, by rw [h2]; rfl⟩

theorem around_of_frame {R : Layer T → Layer T → Prop} {k k' : Junction T} {x y : Out (Junction T) Unit}
    (h : Around R k k') (hx : x.st = k.withLayers x.st.layers) (hy : y.st = k'.withLayers y.st.layers)
    (hr : OutRel (fun _ _ => True) (fun a b : Junction T => List.Forall₂ R a.layers b.layers) x y) :
    OutRel Eq (Around R) x y := by
  have key : ∀ a b : Junction T, a = k.withLayers a.layers → b = k'.withLayers b.layers → List.Forall₂ R a.layers b.layers →
      Around R a b := by
    intro a b ha hb hab
    refine ⟨hab, ?_⟩
    rw [hb, h.2, ha]; rfl
  cases hr with
  | ok _ hr => exact .ok rfl (key _ _ hx hy hr)
  | fail hr => exact .fail (key _ _ hx hy hr)

end Junction

namespace Sim
open Junction
variable {T : Type} [Scalar T] {R : Layer T → Layer T → Prop}

theorem loop (S : Sim T R Eq Eq) {en : Bool} (hE : ∀ l l', R l l' → layerEntries l' en = layerEntries l en)
    (hM : ∀ l l', R l l' → l'.mag = l.mag ∧ l'.referenceLayer = l.referenceLayer) (r : Runner) (dt : T) (we n i : Nat)
    {k k' : Junction T} (h : Around R k k') :
    OutRel Eq (Around R) (runLoop r dt we en i n k) (runLoop r dt we en i n k') := by
  induction n generalizing i k k' with
  | zero => exact .ok rfl h
  | succ n ih =>
    unfold runLoop
    refine (around_of_frame h (runStep_frame k r _ dt) (runStep_frame k' r _ dt) (S.step r dt rfl h.1)).bind
      fun _ _ a b _ hab => ?_
    split
    · exact .fail hab
    · split
      · exact (log_congr hE hM hab _).bind fun _ _ a b _ hab => ih _ hab
      · exact ih _ hab

/-- Runs of related layers in the same junction: same outcome, same log, related layers. -/
theorem outcome (S : Sim T R Eq Eq) {en : Bool} (hE : ∀ l l', R l l' → layerEntries l' en = layerEntries l en)
    (hM : ∀ l l', R l l' → l'.mag = l.mag ∧ l'.referenceLayer = l.referenceLayer)
    (h1 : ∀ l l', R l l' → l.temperatureSet = l'.temperatureSet)
    (h2 : ∀ l l', R l l' → Scalar.eqb l.noiseParams.scaleNoise 0 = Scalar.eqb l'.noiseParams.scaleNoise 0)
    (h3 : ∀ l l' n, R l l' → Scalar.eqb l.noiseParams.scaleNoise 0 = false →
      OutRel (fun _ _ => True) R (l.createBufferedAlphaNoise n) (l'.createBufferedAlphaNoise n))
    {k k' : Junction T} (h : Around R k k') (total dt wf : T) (mode : SolverMode) :
    OutRel Eq (Around R) (k.runSimulation total dt wf en mode) (k'.runSimulation total dt wf en mode) := by
  unfold runSimulation
  split
  · exact .fail h
  · split
    · rename_i N W _ _
      have hs := Sim.solver h1 h2 h3 h.1 mode N
      have hf := getSolver_frame k mode N
      have hf' := getSolver_frame k' mode N
      generalize k.getSolver mode N = x at hs hf
      generalize k'.getSolver mode N = y at hs hf'
      cases hs with
      | @fail e s s' hr =>
        refine .fail ⟨hr, ?_⟩
        dsimp only [Out.fail] at hf hf'
        rw [hf', h.2, hf]; rfl
      | @ok a b s s' hq hr =>
        cases hq
        simp only [Out.bind_ok]
        dsimp only [Out.ok] at hf hf'
        exact S.loop hE hM _ dt W N 0 ⟨hr, by rw [hf', h.2, hf]; rfl⟩
    · exact .fail h

end Sim
