import Verif.Lemmas.Calls

/-! What solver steps never change in a layer, and what no call changes. Helper lemmas only. -/

set_option linter.unusedSectionVars false

namespace Layer
variable {T : Type} [Scalar T]

/-- The layers differ at most in magnetisation, recorded fields and noise generator positions. -/
def Same (l l' : Layer T) : Prop :=
  ∃ m c g b n, l' = { l with mag := m, cache := c, gpos := g, bfn := b, bfnCount := n }

theorem Same.refl (l : Layer T) : Same l l := ⟨_, _, _, _, _, rfl⟩
theorem Same.trans {a b c : Layer T} (h : Same a b) (h' : Same b c) : Same a c := by
  obtain ⟨m, d, g, e, n, rfl⟩ := h
  obtain ⟨m', d', g', e', n', rfl⟩ := h'
  exact ⟨m', d', g', e', n', rfl⟩
theorem Same.id {l l' : Layer T} (h : Same l l') : l'.id = l.id := by obtain ⟨m, d, g, e, n, rfl⟩ := h; rfl
theorem same_setCache (l : Layer T) (c : LayerLog T) : Same l (l.setCache c) := ⟨_, _, _, _, _, rfl⟩
theorem same_setMag (l : Layer T) (m : CVec T) : Same l (l.setMag m) := ⟨_, _, _, _, _, rfl⟩

theorem llg_same (l : Layer T) (t : T) (m b a : CVec T) : Same l (l.llg t m b a).st := by
  by_cases h : l.Guard
  · obtain ⟨c, hc⟩ := l.llg_ok t m b a h; rw [hc]; exact same_setCache l c
  · obtain ⟨c, hc⟩ := l.llg_err t m b a h; rw [hc]; exact same_setCache l c

theorem rk4Step_same (l : Layer T) (t dt : T) (b a : CVec T) : Same l (l.rk4Step t dt b a).st := by
  by_cases h : l.Guard
  · obtain ⟨c, hc⟩ := l.rk4Step_ok t dt b a h
    rw [hc]
    split <;> exact (same_setCache l c).trans (same_setMag _ _)
  · obtain ⟨c, hc⟩ := l.rk4Step_err t dt b a h; rw [hc]; exact same_setCache l c

theorem langevin_same (l : Layer T) (t : T) : Same l (l.langevinVector t).st := by
  unfold langevinVector
  split
  · exact .refl l
  · split
    · exact .refl l
    · exact ⟨_, _, _, _, _, rfl⟩

theorem oneF_same (l : Layer T) : Same l l.oneFVector.st := by
  unfold oneFVector
  split
  · exact .refl l
  · split
    · exact .refl l
    · exact ⟨_, _, _, _, _, rfl⟩

theorem create_same (l : Layer T) (n : Nat) : Same l (l.createBufferedAlphaNoise n).st := by
  unfold createBufferedAlphaNoise
  split
  · exact .refl l
  · split
    · exact .refl l
    · exact ⟨_, _, _, _, _, rfl⟩

theorem Same.bind {α β : Type} {l : Layer T} {x : Out (Layer T) α} {f : α → Layer T → Out (Layer T) β}
    (h : Same l x.st) (hf : ∀ a s, Same s (f a s).st) : Same l (x.bind f).st := by
  rcases x with ⟨_ | a, s⟩
  · exact h
  · exact h.trans (hf a s)

end Layer

namespace Junction
open Spec Layer
variable {T : Type} [Scalar T]

theorem forall₂_refl {α : Type} {R : α → α → Prop} (h : ∀ a, R a a) (l : List α) : List.Forall₂ R l l := by
  induction l with
  | nil => exact .nil
  | cons a l ih => exact .cons (h a) ih

theorem forall₂_trans {α : Type} {R : α → α → Prop} (h : ∀ a b c, R a b → R b c → R a c) {x y z : List α}
    (h1 : List.Forall₂ R x y) (h2 : List.Forall₂ R y z) : List.Forall₂ R x z := by
  induction h1 generalizing z with
  | nil => cases h2; exact .nil
  | cons hab _ ih => cases h2 with
    | cons hbc h2 => exact .cons (h _ _ _ hab hbc) (ih h2)

theorem sames_trans {x y z : List (Layer T)} (h1 : List.Forall₂ Same x y) (h2 : List.Forall₂ Same y z) :
    List.Forall₂ Same x z := forall₂_trans (R := Same) (fun _ _ _ h h' => h.trans h') h1 h2

theorem eulerHeunLayer_same (ms : List (CVec T)) (t dt : T) (i : Nat) (l : Layer T) :
    Same l (eulerHeunLayer ms t dt i l).st := by
  unfold eulerHeunLayer
  refine (langevin_same l t).bind fun _ l => (oneF_same l).bind fun _ l => (llg_same l _ _ _ _).bind fun _ l => ?_
  exact .refl l

theorem heunPredict_same (ms : List (CVec T)) (t dt : T) (i : Nat) (l : Layer T) :
    Same l (heunPredict ms t dt i l).st := by
  unfold heunPredict
  refine (llg_same l _ _ _ _).bind fun _ l => (langevin_same l t).bind fun _ l => (oneF_same l).bind fun _ l => ?_
  exact .refl l

theorem heunCorrect_same (ss : List (HeunStage T)) (t dt : T) (i : Nat) (l : Layer T) :
    Same l (heunCorrect ss t dt i l).st := by
  unfold heunCorrect
  split
  · exact .refl l
  · exact (llg_same l _ _ _ _).bind fun _ l => same_setMag l _

theorem storeMags_same (ls : List (Layer T)) (ms : List (CVec T)) : List.Forall₂ Same ls (storeMags ls ms) := by
  induction ls generalizing ms with
  | nil => cases ms <;> exact .nil
  | cons l ls ih => cases ms with
    | nil => exact forall₂_refl Same.refl _
    | cons m ms => exact .cons (same_setMag l _) (ih ms)

/-- A solver step keeps everything but the dynamic state of each layer. -/
theorem runStep_same (j : Junction T) (r : Runner) (t dt : T) :
    List.Forall₂ Same j.layers (j.runStep r t dt).st.layers := by
  cases r with
  | single =>
    unfold runStep runSingleLayerSolver
    dsimp only
    cases hl : j.layers with
    | nil => dsimp only [Out.fail]; rw [hl]; exact .nil
    | cons l ls => exact .cons (rk4Step_same l _ _ _ _) (forall₂_refl Same.refl _)
  | multi =>
    unfold runStep runMultiLayerSolver
    dsimp only
    have := Out.traverse_keeps Same Same.refl (fun i l => l.rk4Step t dt ((magCopies j.layers).getD i .zero)
      ((magCopies j.layers).getD (i + 2) .zero)) (fun i l => rk4Step_same l _ _ _ _) 0 j.layers
    generalize Out.traverse _ 0 j.layers = x at this
    rcases x with ⟨r, ls⟩
    cases r <;> exact this
  | heun =>
    unfold runStep heunSolverStep
    dsimp only
    have := Out.traverse_keeps Same Same.refl (heunPredict (j.layers.map Layer.mag) t dt)
      (fun i l => heunPredict_same _ _ _ _ _) 0 j.layers
    generalize Out.traverse _ 0 j.layers = x at this
    rcases x with ⟨r, ls⟩
    cases r with
    | error e => exact this
    | ok ss =>
      have h2 := Out.traverse_keeps Same Same.refl (heunCorrect ss t dt) (fun i l => heunCorrect_same _ _ _ _ _) 0 ls
      dsimp only at this ⊢
      generalize Out.traverse _ 0 ls = x at h2
      rcases x with ⟨r, ls'⟩
      cases r <;> exact sames_trans this h2
  | eulerHeun =>
    unfold runStep eulerHeunSolverStep
    dsimp only
    have := Out.traverse_keeps Same Same.refl (eulerHeunLayer (j.layers.map Layer.mag) t dt)
      (fun i l => eulerHeunLayer_same _ _ _ _ _) 0 j.layers
    generalize Out.traverse _ 0 j.layers = x at this
    rcases x with ⟨r, ls⟩
    cases r with
    | error e => exact this
    | ok ms => exact sames_trans this (storeMags_same ls ms)

theorem solverLoop_same (n : Nat) (mode : SolverMode) (ls : List (Layer T)) :
    List.Forall₂ Same ls (solverLoop n mode ls).st := by
  induction ls generalizing mode with
  | nil => exact .nil
  | cons l ls ih =>
    unfold solverLoop
    dsimp only
    split
    · exact .cons (.refl l) (ih _)
    · have := create_same l n
      generalize l.createBufferedAlphaNoise n = x at this
      rcases x with ⟨_ | _, l'⟩
      · exact .cons this (forall₂_refl Same.refl _)
      · exact .cons this (ih _)

theorem getSolver_same (j : Junction T) (mode : SolverMode) (n : Nat) :
    List.Forall₂ Same j.layers (j.getSolver mode n).st.layers := by
  have := solverLoop_same n mode j.layers
  unfold getSolver
  generalize solverLoop n mode j.layers = x at this
  rcases x with ⟨_ | _, ls⟩ <;> exact this

theorem runLoop_same (r : Runner) (dt : T) (we : Nat) (en : Bool) (n i : Nat) (j : Junction T) :
    List.Forall₂ Same j.layers (runLoop r dt we en i n j).st.layers := by
  induction n generalizing i j with
  | zero => exact forall₂_refl Same.refl _
  | succ n ih =>
    unfold runLoop
    dsimp only
    have h1 := runStep_same j r (Scalar.lit (i : ℚ) * dt) dt
    generalize j.runStep r (Scalar.lit (i : ℚ) * dt) dt = x at h1
    rcases x with ⟨_ | _, k⟩
    · exact h1
    · simp only [Out.bind]
      split
      · exact h1
      · split
        · have h2 := log_layers k (Scalar.lit (i : ℚ) * dt) en
          generalize k.logLayerParams (Scalar.lit (i : ℚ) * dt) en = y at h2
          rcases y with ⟨_ | _, k2⟩
          · dsimp only at h2 ⊢; rw [h2]; exact h1
          · exact sames_trans (by dsimp only at h2; rw [h2]; exact h1) (ih _ k2)
        · exact sames_trans h1 (ih _ _)

theorem runSimulation_same (j : Junction T) (total dt wf : T) (en : Bool) (mode : SolverMode) :
    List.Forall₂ Same j.layers (j.runSimulation total dt wf en mode).st.layers := by
  unfold runSimulation
  split
  · exact forall₂_refl Same.refl _
  · split
    · rename_i N W _ _
      have h1 := getSolver_same j mode N
      generalize j.getSolver mode N = x at h1
      rcases x with ⟨_ | ⟨r, m⟩, k⟩
      · exact h1
      · exact sames_trans h1 (runLoop_same r dt W en N 0 k)
    · exact forall₂_refl Same.refl _

theorem same_ids {ls ls' : List (Layer T)} (h : List.Forall₂ Same ls ls') : ls'.map Layer.id = ls.map Layer.id := by
  induction h with
  | nil => rfl
  | cons hab _ ih => simp [hab.id, ih]

/-- A property of layers that every layer-level setter keeps is kept by every junction-level setter. -/
theorem setLoop_keeps (P : Layer T → Layer T → Prop) (hr : ∀ l, P l l) (id : String) (f : Layer T → Out (Layer T) Unit)
    (hf : ∀ l, P l (f l).st) (ls : List (Layer T)) : List.Forall₂ P ls (setLoop id f ls).st := by
  induction ls with
  | nil => exact .nil
  | cons l ls ih =>
    unfold setLoop
    split
    · have h0 := hf l
      generalize f l = x at h0
      rcases x with ⟨_ | _, l'⟩
      · exact .cons h0 (forall₂_refl hr _)
      · rcases h : setLoop id f ls with ⟨_ | _, s⟩ <;> rw [h] at ih <;> exact .cons h0 ih
    · rcases h : setLoop id f ls with ⟨_ | _, s⟩ <;> rw [h] at ih <;> exact .cons (hr l) ih

theorem updateFirst_keeps (P : Layer T → Layer T → Prop) (hr : ∀ l, P l l) (id : String) (f : Layer T → Out (Layer T) Unit)
    (hf : ∀ l, P l (f l).st) (ls : List (Layer T)) : List.Forall₂ P ls (updateFirst id f ls).st := by
  induction ls with
  | nil => exact .nil
  | cons l ls ih =>
    unfold updateFirst
    split
    · exact .cons (hf l) (forall₂_refl hr _)
    · exact .cons (hr l) ih

theorem couplePair_keeps (P : Layer T → Layer T → Prop) (hr : ∀ l, P l l) (a b : String) (f g : Layer T → Layer T)
    (hf : ∀ l, P l (f l)) (hg : ∀ l, P l (g l)) (ls : List (Layer T)) :
    List.Forall₂ P ls ((couplePair a b f g ls).getD ls) := by
  induction ls with
  | nil => exact .nil
  | cons l ls ih =>
    cases ls with
    | nil => exact forall₂_refl hr _
    | cons u ls =>
      unfold couplePair
      split
      · exact .cons (hf _) (.cons (hg _) (forall₂_refl hr _))
      · split
        · exact .cons (hf _) (.cons (hg _) (forall₂_refl hr _))
        · rcases h : couplePair a b f g (u :: ls) with _ | s
          · exact forall₂_refl hr _
          · rw [h] at ih; exact .cons (hr l) ih

/-- Every call other than a run keeps a property that every layer setter keeps. -/
theorem Call.keeps (P : Layer T → Layer T → Prop) (hr : ∀ l, P l l)
    (h1 : ∀ l d, P l (l.setTemperatureDriver d)) (h2 : ∀ l d, P l (l.setNonStochasticLangevinDriver d))
    (h3 : ∀ l d, P l (l.setAnisotropyDriver d)) (h4 : ∀ l d, P l (l.setExternalFieldDriver d))
    (h5 : ∀ l d, P l (l.setOerstedFieldDriver d)) (h6 : ∀ l d, P l (l.setCurrentDriver d))
    (h8 : ∀ l d, P l (l.setReservedInteractionField d)) (h9 : ∀ l d, P l (l.setHdmiDriver d))
    (h10 : ∀ l m, P l (l.setMagnetisation m).st) (h11 : ∀ l b, P l (l.setAlternativeSTT b)) (h12 : ∀ l, P l l.setOneFNoise)
    (h13 : ∀ l v, P l (l.setReferenceLayer v)) (h14 : ∀ l r, P l (l.setReferenceType r).st)
    (h15 : ∀ l d, P l (l.setIECDriverTop d)) (h16 : ∀ l d, P l (l.setIECDriverBottom d))
    (h17 : ∀ l d, P l (l.setQuadIECDriverTop d)) (h18 : ∀ l d, P l (l.setQuadIECDriverBottom d))
    (h19 : ∀ l d, P l (l.setIDMIDriverTop d)) (h20 : ∀ l d, P l (l.setIDMIDriverBottom d))
    (j : Junction T) (c : Call T)
    (h7 : (∃ id d, c = .dampingLike id d ∨ c = .fieldLike id d) → ∀ l d, P l (l.setDampingLikeTorqueDriver d).st ∧ P l (l.setFieldLikeTorqueDriver d).st)
    (hc : ∀ t d w e m, c ≠ .run t d w e m) :
    List.Forall₂ P j.layers (c.exec j).st.layers := by
  have e1 : ∀ id f, (∀ l, P l (f l).st) → List.Forall₂ P j.layers (j.layerSetter id f).st.layers := by
    intro id f hf; rw [layerSetter_st]; exact setLoop_keeps P hr id f hf _
  have e2 : ∀ id f, (∀ l, P l (f l).st) → List.Forall₂ P j.layers (j.firstOrAll id f).st.layers := by
    intro id f hf; rw [firstOrAll_st]
    dsimp only
    split
    · exact Out.traverse_keeps P hr (fun _ l => f l) (fun _ l => hf l) 0 _
    · exact updateFirst_keeps P hr id f hf _
  have e3 : ∀ a b f g, (∀ l, P l (f l)) → (∀ l, P l (g l)) → List.Forall₂ P j.layers (j.coupling a b f g).st.layers := by
    intro a b f g hf hg; rw [coupling_st]; exact couplePair_keeps P hr a b f g hf hg _
  cases c with
  | temperature id d => exact e1 _ _ (h1 · d)
  | nonStochastic id d => exact e1 _ _ (h2 · d)
  | anisotropy id d => exact e1 _ _ (h3 · d)
  | externalField id d => exact e1 _ _ (h4 · d)
  | oersted id d => exact e1 _ _ (h5 · d)
  | current id d => exact e1 _ _ (h6 · d)
  | dampingLike id d => exact e1 _ _ fun l => (h7 ⟨id, d, .inl rfl⟩ l d).1
  | fieldLike id d => exact e1 _ _ fun l => (h7 ⟨id, d, .inr rfl⟩ l d).2
  | reserved id d => exact e1 _ _ (h8 · d)
  | hdmi id d => exact e1 _ _ (h9 · d)
  | magnetisation id m => exact e1 _ _ (h10 · m)
  | alternativeSTT id b => exact e2 _ _ (h11 · b)
  | oneFNoise id => exact e2 _ _ h12
  | referenceLayer id v => exact e2 _ _ (h13 · v)
  | referenceType id r => exact e2 _ _ (h14 · r)
  | iec a b d => exact e3 _ _ _ _ (h15 · d) (h16 · d)
  | quadIec a b d => exact e3 _ _ _ _ (h17 · d) (h18 · d)
  | idmi a b d => exact e3 _ _ _ _ (h19 · d) (h20 · d)
  | clearLog => exact forall₂_refl hr _
  | run t d w e m => exact absurd rfl (hc t d w e m)

theorem setMagnetisation_st (l : Layer T) (m : CVec T) :
    (l.setMagnetisation m).st = l ∨ (l.setMagnetisation m).st = l.setMag m.normalize := by
  unfold Layer.setMagnetisation; split
  · exact .inl rfl
  · exact .inr rfl

theorem setReferenceType_st (l : Layer T) (r : Reference) :
    (l.setReferenceType r).st = l ∨ (l.setReferenceType r).st = { l with referenceType := r } := by
  unfold Layer.setReferenceType; split
  · exact .inl rfl
  · exact .inr rfl

theorem setDamping_st (l : Layer T) (d : ScalarDriver T) :
    (l.setDampingLikeTorqueDriver d).st = { l with includeSOT := true } ∨
    (l.setDampingLikeTorqueDriver d).st = { l with includeSOT := true, dampingLikeTorqueDriver := d } := by
  unfold Layer.setDampingLikeTorqueDriver; dsimp only; split
  · exact .inl rfl
  · split
    · exact .inl rfl
    · exact .inr rfl

theorem setField_st (l : Layer T) (d : ScalarDriver T) :
    (l.setFieldLikeTorqueDriver d).st = { l with includeSOT := true } ∨
    (l.setFieldLikeTorqueDriver d).st = { l with includeSOT := true, fieldLikeTorqueDriver := d } := by
  unfold Layer.setFieldLikeTorqueDriver; dsimp only; split
  · exact .inl rfl
  · split
    · exact .inl rfl
    · exact .inr rfl

/-- No call changes the ids. -/
theorem Call.ids (j : Junction T) (c : Call T) : (c.exec j).st.layers.map Layer.id = j.layers.map Layer.id := by
  by_cases hc : ∃ t d w e m, c = .run t d w e m
  · obtain ⟨t, d, w, e, m, rfl⟩ := hc
    exact same_ids (runSimulation_same j t d w e m)
  · push Not at hc
    have := Call.keeps (fun l l' => l'.id = l.id) (fun _ => rfl) (fun _ _ => rfl) (fun _ _ => rfl) (fun _ _ => rfl)
      (fun _ _ => rfl) (fun _ _ => rfl) (fun _ _ => rfl) (fun _ _ => rfl) (fun _ _ => rfl)
      (fun l m => by rcases setMagnetisation_st l m with h | h <;> simp [h, Layer.setMag])
      (fun _ _ => rfl) (fun _ => rfl) (fun _ _ => rfl)
      (fun l m => by rcases setReferenceType_st l m with h | h <;> simp [h])
      (fun _ _ => rfl) (fun _ _ => rfl) (fun _ _ => rfl) (fun _ _ => rfl) (fun _ _ => rfl) (fun _ _ => rfl) j c
      (fun _ l d => ⟨by rcases setDamping_st l d with h | h <;> simp [h], by rcases setField_st l d with h | h <;> simp [h]⟩) hc
    generalize j.layers = a, (c.exec j).st.layers = b at this
    induction this with
    | nil => rfl
    | cons hab _ ih => simp [hab, ih]

theorem program_ids (cs : List (Call T)) (j : Junction T) : (program cs j).layers.map Layer.id = j.layers.map Layer.id := by
  induction cs generalizing j with
  | nil => rfl
  | cons c cs ih => exact (ih _).trans (Call.ids j c)

end Junction
