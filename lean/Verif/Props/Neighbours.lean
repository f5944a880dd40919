import Verif.Lemmas.Steps
import Verif.Props.UnitLength

set_option linter.unusedSectionVars false
set_option linter.unusedSimpArgs false

/-! # C19: a layer sees only its direct neighbours, at the same instant -/

namespace Junction
open Spec Layer
variable {T : Type} [Scalar T]

/-- C19. A successful multilayer RK4 step applies to each layer, separately, one RK4 step whose two neighbours are
the magnetisations *before* the step of the layers directly below and above. -/
theorem C19_step (j k : Junction T) (t dt : T) (h : j.runMultiLayerSolver t dt = .ok () k) :
    k.layers.length = j.layers.length ∧
    ∀ (i : Nat) (l : Layer T), j.layers[i]? = some l → ∃ l', k.layers[i]? = some l' ∧
      l.rk4Step t dt (magBelow j.layers i) (magAbove j.layers i) = .ok () l' := by
  unfold runMultiLayerSolver at h
  dsimp only at h
  rcases hs : Out.traverse (fun i l => l.rk4Step t dt ((magCopies j.layers).getD i .zero)
    ((magCopies j.layers).getD (i + 2) .zero)) 0 j.layers with ⟨_ | bs, ls⟩
  · rw [hs] at h; simp [Out.ok, Out.fail] at h
  · rw [hs] at h
    simp only [Out.ok, Out.mk.injEq, true_and] at h
    obtain ⟨-, h2, h3⟩ := Out.traverse_ok _ hs
    rw [← h]
    refine ⟨h2, fun i l hl => ?_⟩
    obtain ⟨b, l', -, hl', hst⟩ := h3 i l hl
    have hlt : i < j.layers.length := (List.getElem?_eq_some_iff.1 hl).1
    rw [Nat.zero_add, copies_below _ _ hlt, copies_above _ _ hlt] at hst
    exact ⟨l', hl', hst⟩

/-- C19. Two junctions, of any sizes, in which a layer occurs with the same state and the same magnetisations
directly below and above: the layer after the step is the same, whatever the rest of the junctions is. -/
theorem C19_only_neighbours (j j' k k' : Junction T) (t dt : T) (h : j.runMultiLayerSolver t dt = .ok () k)
    (h' : j'.runMultiLayerSolver t dt = .ok () k') (i i' : Nat) (l : Layer T) (hl : j.layers[i]? = some l)
    (hl' : j'.layers[i']? = some l) (hb : magBelow j.layers i = magBelow j'.layers i')
    (ha : magAbove j.layers i = magAbove j'.layers i') : k.layers[i]? = k'.layers[i']? := by
  obtain ⟨-, h1⟩ := C19_step j k t dt h
  obtain ⟨-, h2⟩ := C19_step j' k' t dt h'
  obtain ⟨m, hm, hm'⟩ := h1 i l hl
  obtain ⟨n, hn, hn'⟩ := h2 i' l hl'
  rw [hb, ha, hn'] at hm'
  simp only [Out.ok, Out.mk.injEq, true_and] at hm'
  rw [hm, hn, hm']

/-- The same for the Euler–Heun step. -/
theorem C19_eulerHeun (j j' k k' : Junction T) (t dt : T) (h : j.eulerHeunSolverStep t dt = .ok () k)
    (h' : j'.eulerHeunSolverStep t dt = .ok () k') (i i' : Nat) (l : Layer T) (hl : j.layers[i]? = some l)
    (hl' : j'.layers[i']? = some l) (hb : magBelow j.layers i = magBelow j'.layers i')
    (ha : magAbove j.layers i = magAbove j'.layers i') : k.layers[i]? = k'.layers[i']? := by
  have key : ∀ (j k : Junction T) (i : Nat), j.eulerHeunSolverStep t dt = .ok () k → j.layers[i]? = some l →
      ∃ m l', eulerHeunLayer (j.layers.map Layer.mag) t dt i l = .ok m l' ∧ k.layers[i]? = some (l'.setMag m.normalize) := by
    intro j k i h hl
    unfold eulerHeunSolverStep at h
    dsimp only at h
    rcases hs : Out.traverse (eulerHeunLayer (j.layers.map Layer.mag) t dt) 0 j.layers with ⟨_ | ms, ls⟩
    · rw [hs] at h; simp [Out.ok, Out.fail] at h
    · rw [hs] at h
      simp only [Out.ok, Out.mk.injEq, true_and] at h
      obtain ⟨-, -, h3⟩ := Out.traverse_ok _ hs
      obtain ⟨m, l', hm, hl', hst⟩ := h3 i l hl
      rw [Nat.zero_add] at hst
      refine ⟨m, l', hst, ?_⟩
      rw [← h]
      have store : ∀ (ls : List (Layer T)) (ms : List (CVec T)) (i : Nat) (a : Layer T) (m : CVec T),
          ls[i]? = some a → ms[i]? = some m → (storeMags ls ms)[i]? = some (a.setMag m.normalize) := by
        intro ls
        induction ls with
        | nil => intro ms i a m ha; simp at ha
        | cons x ls ih =>
          intro ms i a m ha hm
          cases ms with
          | nil => simp at hm
          | cons y ms =>
            cases i with
            | zero => simp at ha hm; subst ha; subst hm; simp [storeMags]
            | succ i => simp at ha hm; simpa [storeMags] using ih ms i a m ha hm
      exact store ls ms i l' m hl' hm
  obtain ⟨m, l1, hm, hk⟩ := key j k i h hl
  obtain ⟨m', l1', hm', hk'⟩ := key j' k' i' h' hl'
  have e : eulerHeunLayer (j.layers.map Layer.mag) t dt i l = eulerHeunLayer (j'.layers.map Layer.mag) t dt i' l := by
    unfold eulerHeunLayer
    simp only [below_eq, above_eq, hb, ha]
  rw [e, hm'] at hm
  simp only [Out.ok, Out.mk.injEq, Except.ok.injEq] at hm
  rw [hk, hk', hm.1, hm.2]

/-- Specification: step the layers one at a time in the given order of indices, every layer reading the
magnetisations before the step from `old`. -/
def stepInOrder (old : List (Layer T)) (t dt : T) : List Nat → List (Layer T) → Except Err (List (Layer T))
  | [], ls => .ok ls
  | i :: is, ls =>
    match ls[i]? with
    | none => .error .ub
    | some l =>
      match l.rk4Step t dt (magBelow old i) (magAbove old i) with
      | ⟨.error e, _⟩ => .error e
      | ⟨.ok _, l'⟩ => stepInOrder old t dt is (ls.set i l')

/-- C19. The order in which the layers are updated does not matter: stepping them in any order that visits each
layer once gives the result of the solver. -/
theorem C19_order (j k : Junction T) (t dt : T) (h : j.runMultiLayerSolver t dt = .ok () k) (order : List Nat)
    (ho : order.Perm (List.range j.layers.length)) : stepInOrder j.layers t dt order j.layers = .ok k.layers := by
  obtain ⟨hlen, hst⟩ := C19_step j k t dt h
  -- general: the layers of `ls` outside `order` are already final
  have key : ∀ (order : List Nat) (ls : List (Layer T)), order.Nodup → (∀ i ∈ order, i < j.layers.length) →
      ls.length = j.layers.length → (∀ i, i ∈ order → ls[i]? = j.layers[i]?) → (∀ i, i ∉ order → ls[i]? = k.layers[i]?) →
      stepInOrder j.layers t dt order ls = .ok k.layers := by
    intro order
    induction order with
    | nil =>
      intro ls _ _ _ _ h2
      simp only [stepInOrder]
      exact congrArg _ (List.ext_getElem? fun i => h2 i (by simp))
    | cons i is ih =>
      intro ls hnd hb hl h1 h2
      have hi : i < j.layers.length := hb i (by simp)
      have hji : j.layers[i]? = some j.layers[i] := List.getElem?_eq_getElem hi
      obtain ⟨l', hl', hs⟩ := hst i _ hji
      unfold stepInOrder
      rw [h1 i (by simp), hji]
      dsimp only
      rw [hs]
      dsimp only [Out.ok]
      obtain ⟨hni, hnd⟩ := List.nodup_cons.1 hnd
      refine ih _ hnd (fun q hq => hb q (by simp [hq])) (by simpa using hl) ?_ ?_
      · intro q hq
        have : i ≠ q := by rintro rfl; exact hni hq
        rw [List.getElem?_set_ne this, h1 q (by simp [hq])]
      · intro q hq
        by_cases hiq : i = q
        · subst hiq
          rw [List.getElem?_set_self (by omega), hl']
        · rw [List.getElem?_set_ne hiq, h2 q (by simp [hq, Ne.symm hiq])]
  refine key order j.layers (ho.nodup_iff.2 List.nodup_range) (fun i hi => ?_) rfl (fun _ _ => rfl) (fun i hi => ?_)
  · exact List.mem_range.1 (ho.mem_iff.1 hi)
  · have : ¬ i < j.layers.length := fun q => hi (ho.mem_iff.2 (List.mem_range.2 q))
    rw [List.getElem?_eq_none_iff.2 (by omega), List.getElem?_eq_none_iff.2 (by omega)]

example : ∃ k : Junction ℝ, ({ demoJ with layers := [Layer.demo, Layer.demo] } : Junction ℝ).runMultiLayerSolver 0 1 = .ok () k := by
  obtain ⟨bs, ls, ht, -, -, -⟩ := Out.traverse_exists (fun i l => Layer.rk4Step l 0 1
    ((magCopies [Layer.demo, Layer.demo]).getD i .zero) ((magCopies [Layer.demo, Layer.demo]).getD (i + 2) .zero))
    (fun _ _ _ _ => True) 0 [Layer.demo, Layer.demo] (by
      intro k l hk
      have : l = Layer.demo := by
        have := List.mem_of_getElem? hk; simpa using this
      subst this
      obtain ⟨c, hc⟩ := Layer.demo.rk4Step_ok 0 1 ((magCopies [Layer.demo, Layer.demo]).getD (0 + k) .zero)
        ((magCopies [Layer.demo, Layer.demo]).getD (0 + k + 2) .zero) Layer.demo_guard
      rw [if_neg (by simp)] at hc
      exact ⟨_, _, hc, trivial⟩)
  unfold runMultiLayerSolver
  dsimp only
  rw [ht]
  exact ⟨_, rfl⟩

end Junction
