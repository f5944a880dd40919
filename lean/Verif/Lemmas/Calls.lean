import Verif.Spec.Setters
import Verif.Lemmas.Run

/-! No call changes the magnetoresistance parameters or the number of layers. -/

set_option linter.unusedSectionVars false

namespace Junction
open Spec
variable {T : Type} [Scalar T]

theorem setLoop_length (id : String) (f : Layer T → Out (Layer T) Unit) (ls : List (Layer T)) :
    (setLoop id f ls).st.length = ls.length := by
  induction ls with
  | nil => rfl
  | cons l ls ih =>
    unfold setLoop
    split
    · split
      · simp
      · rcases h : setLoop id f ls with ⟨_ | _, s⟩ <;> rw [h] at ih <;> simpa using ih
    · rcases h : setLoop id f ls with ⟨_ | _, s⟩ <;> rw [h] at ih <;> simpa using ih

theorem updateFirst_length (id : String) (f : Layer T → Out (Layer T) Unit) (ls : List (Layer T)) :
    (updateFirst id f ls).st.length = ls.length := by
  induction ls with
  | nil => rfl
  | cons l ls ih =>
    unfold updateFirst
    split
    · simp
    · simp [ih]

theorem couplePair_length (a b : String) (f g : Layer T → Layer T) (ls ls' : List (Layer T))
    (h : couplePair a b f g ls = some ls') : ls'.length = ls.length := by
  induction ls generalizing ls' with
  | nil => simp [couplePair] at h
  | cons l ls ih =>
    cases ls with
    | nil => simp [couplePair] at h
    | cons u ls =>
      unfold couplePair at h
      split at h
      · cases h; rfl
      · split at h
        · cases h; rfl
        · rcases hc : couplePair a b f g (u :: ls) with _ | q
          · rw [hc] at h; simp at h
          · rw [hc] at h
            simp only [Option.map_some, Option.some.injEq] at h
            subst h
            simpa using ih q hc

theorem sameParams_of_layers (j : Junction T) (ls : List (Layer T)) (h : ls.length = j.layers.length) :
    j.SameParams { j with layers := ls } := ⟨rfl, rfl, rfl, rfl, rfl, rfl, rfl, rfl, rfl, rfl, rfl, h.symm⟩

theorem layerSetter_st (j : Junction T) (id : String) (f : Layer T → Out (Layer T) Unit) :
    (j.layerSetter id f).st = { j with layers := (setLoop id f j.layers).st } := by
  unfold layerSetter
  rcases setLoop id f j.layers with ⟨_ | b, s⟩
  · rfl
  · cases b <;> rfl

theorem firstOrAll_st (j : Junction T) (id : String) (f : Layer T → Out (Layer T) Unit) :
    (j.firstOrAll id f).st = { j with layers := if id = "all" then (Out.traverse (fun _ l => f l) 0 j.layers).st
      else (updateFirst id f j.layers).st } := by
  unfold firstOrAll
  split
  · rcases Out.traverse (fun _ l => f l) 0 j.layers with ⟨_ | b, s⟩ <;> rfl
  · rfl

theorem coupling_st (j : Junction T) (a b : String) (f g : Layer T → Layer T) :
    (j.coupling a b f g).st = { j with layers := (couplePair a b f g j.layers).getD j.layers } := by
  unfold coupling
  rcases couplePair a b f g j.layers with _ | s <;> rfl

theorem runSimulation_params (j : Junction T) (total dt wf : T) (en : Bool) (mode : SolverMode) :
    j.SameParams (j.runSimulation total dt wf en mode).st := by
  unfold runSimulation
  split
  · exact .refl j
  · split
    · rename_i N W _ _
      have h1 := Sim.getSolver_params j mode N
      generalize j.getSolver mode N = x at h1
      rcases x with ⟨_ | ⟨r, m⟩, k⟩
      · exact h1
      · exact h1.trans (runLoop_params r dt W en N 0 k)
    · exact .refl j

theorem Call.params (j : Junction T) (c : Call T) : j.SameParams (c.exec j).st := by
  have h1 : ∀ id f, j.SameParams (j.layerSetter id f).st := by
    intro id f
    rw [layerSetter_st]
    exact sameParams_of_layers j _ (setLoop_length id f _)
  have h2 : ∀ id f, j.SameParams (j.firstOrAll id f).st := by
    intro id f
    rw [firstOrAll_st]
    apply sameParams_of_layers j _
    split
    · exact Out.traverse_length _ _ _
    · exact updateFirst_length id f _
  have h3 : ∀ a b f g, j.SameParams (j.coupling a b f g).st := by
    intro a b f g
    rw [coupling_st]
    apply sameParams_of_layers j _
    rcases h : couplePair a b f g j.layers with _ | s
    · rfl
    · exact couplePair_length a b f g _ s h
  cases c with
  | clearLog => exact ⟨rfl, rfl, rfl, rfl, rfl, rfl, rfl, rfl, rfl, rfl, rfl, rfl⟩
  | run t d w en m => exact runSimulation_params j t d w en m
  | _ => first | exact h1 _ _ | exact h2 _ _ | exact h3 _ _ _ _

theorem program_params (cs : List (Call T)) (j : Junction T) : j.SameParams (program cs j) := by
  induction cs generalizing j with
  | nil => exact .refl j
  | cons c cs ih => exact (Call.params j c).trans (ih _)

end Junction
