import Verif.Lemmas.Run
import Verif.Spec.Junction

/-! Helper lemmas connecting the solver steps with `Spec.magBelow`, `Spec.magAbove`. -/

set_option linter.unusedSectionVars false

namespace Out
variable {σ β : Type}
/-- A loop whose every call succeeds. -/
theorem traverse_exists (f : Nat → σ → Out σ β) (P : Nat → σ → β → σ → Prop) (i : Nat) (as : List σ)
    (hf : ∀ k a, as[k]? = some a → ∃ b a', f (i + k) a = .ok b a' ∧ P (i + k) a b a') :
    ∃ bs as', traverse f i as = .ok bs as' ∧ bs.length = as.length ∧ as'.length = as.length ∧
      ∀ k a b a', as[k]? = some a → bs[k]? = some b → as'[k]? = some a' → P (i + k) a b a' := by
  induction as generalizing i with
  | nil => exact ⟨[], [], rfl, rfl, rfl, by simp⟩
  | cons a as ih =>
    obtain ⟨b, a', hb, hP⟩ := hf 0 a (by simp)
    simp only [Nat.add_zero] at hb hP
    obtain ⟨bs, as', h1, h2, h3, h4⟩ := ih (i + 1) (fun k x hk => by
      have := hf (k + 1) x (by simpa using hk)
      rwa [show i + 1 + k = i + (k + 1) by ring])
    refine ⟨b :: bs, a' :: as', ?_, by simp [h2], by simp [h3], ?_⟩
    · simp only [traverse, hb, ok] at h1 ⊢
      rw [h1]
    · intro k x y x' hx hy hx'
      cases k with
      | zero => simp at hx hy hx'; subst hx; subst hy; subst hx'; exact hP
      | succ k =>
        simp at hx hy hx'
        have := h4 k x y x' hx hy hx'
        rwa [show i + 1 + k = i + (k + 1) by ring] at this
end Out

namespace Junction
open Spec
variable {T : Type} [Scalar T]

theorem zero_def : (CVec.zero : CVec T) = ⟨0, 0, 0⟩ := rfl

theorem below_eq (ls : List (Layer T)) (i : Nat) : below (ls.map Layer.mag) i = magBelow ls i := by
  cases i with
  | zero => rfl
  | succ i =>
    simp only [below, magBelow, Nat.succ_ne_zero, if_false, Nat.add_sub_cancel, List.getD_eq_getElem?_getD,
      List.getElem?_map]
    cases ls[i]? <;> rfl

theorem above_eq (ls : List (Layer T)) (i : Nat) : above (ls.map Layer.mag) i = magAbove ls i := by
  unfold above magAbove
  rw [List.length_map]
  split
  · rename_i h
    have : ls[i + 1]? = none := by rw [List.getElem?_eq_none_iff]; omega
    rw [this]; rfl
  · simp only [List.getD_eq_getElem?_getD, List.getElem?_map]
    cases ls[i + 1]? <;> rfl

theorem copies_below (ls : List (Layer T)) (i : Nat) (h : i < ls.length) :
    (magCopies ls).getD i .zero = magBelow ls i := by
  unfold magCopies
  cases i with
  | zero => rfl
  | succ i =>
    simp only [List.cons_append, magBelow, List.getD_eq_getElem?_getD, List.getElem?_cons_succ]
    rw [List.getElem?_append_left (by simpa using Nat.lt_of_succ_lt h), List.getElem?_map,
      List.getElem?_eq_getElem (Nat.lt_of_succ_lt h)]
    rfl

theorem copies_above (ls : List (Layer T)) (i : Nat) (h : i < ls.length) :
    (magCopies ls).getD (i + 2) .zero = magAbove ls i := by
  unfold magCopies
  simp only [List.cons_append, magAbove, List.getD_eq_getElem?_getD, List.getElem?_cons_succ]
  by_cases h' : i + 1 < ls.length
  · rw [List.getElem?_append_left (by simpa using h'), List.getElem?_map, List.getElem?_eq_getElem h']
    rfl
  · have e : i + 1 = (ls.map Layer.mag).length := by simp; omega
    rw [e, List.getElem?_append_right (Nat.le_refl _)]
    have : ls[(ls.map Layer.mag).length]? = none := by rw [List.getElem?_eq_none_iff]; simp
    rw [this]
    simp; rfl

theorem quiet_iff (l : Layer T) : ¬ Noisy l ↔ l.temperatureSet = false ∧ Scalar.eqb l.noiseParams.scaleNoise 0 = true := by
  unfold Noisy
  rw [not_or]
  simp

/-- without noise the requested mode stays and nothing is created -/
theorem solverLoop_quiet (n : Nat) (mode : SolverMode) (ls : List (Layer T)) (h : ∀ l ∈ ls, ¬ Noisy l) :
    solverLoop n mode ls = .ok mode ls := by
  induction ls with
  | nil => rfl
  | cons l ls ih =>
    obtain ⟨h2, h3⟩ := (quiet_iff l).1 (h l (by simp))
    unfold solverLoop
    simp only [h2, h3, if_true, Bool.false_eq_true, if_false]
    rw [ih (fun l hl' => h l (List.mem_cons_of_mem _ hl'))]
    rfl

theorem solver_quiet (j : Junction T) (h : ∀ l ∈ j.layers, ¬ Noisy l) (mode : SolverMode) (n : Nat) :
    j.getSolver mode n = .ok (pickRunner j.layers.length mode, mode) j := by
  unfold getSolver
  rw [solverLoop_quiet n mode j.layers h]
  rfl

theorem pickRunner_single {n : Nat} {mode : SolverMode} (h : pickRunner n mode = .single) : n = 1 := by
  unfold pickRunner at h
  split at h
  · cases h
  · split at h
    · cases h
    · split at h
      · assumption
      · cases h

end Junction

namespace Spec.TimeIndependent
variable {T : Type} [Scalar T] {l : Layer T} (h : Spec.TimeIndependent l)
include h

theorem heffV (s t : T) (m b a d f : CVec T) : l.heffV s m b a d f = l.heffV t m b a d f := by
  unfold Layer.heffV
  rw [h.external s t, h.anisotropy s t, h.iecBottom s t, h.quadBottom s t, h.iecTop s t, h.quadTop s t,
    h.idmiBottom s t, h.idmiTop s t, h.oersted s t, h.dmi s t, h.reserved s t]

theorem solve (s t : T) (m b a f : CVec T) : (l.solveLLG s m b a f).1 = (l.solveLLG t m b a f).1 := by
  unfold Layer.solveLLG
  rw [h.current s t, h.fieldLike s t, h.dampingLike s t]

theorem llgV (s t : T) (m b a : CVec T) : l.llgV s m b a = l.llgV t m b a := by
  unfold Layer.llgV Layer.llgDV
  rw [h.solve s t, h.heffV s t]

end Spec.TimeIndependent

namespace Junction
open Spec
variable {T : Type} [Scalar T]

theorem steps_eq_evolve (r : Runner) (dt : T) (n i : Nat) (j : Junction T) :
    steps r dt i n j = evolve r dt i n j := by
  induction n generalizing i j with
  | zero => rfl
  | succ n ih => simp only [steps, evolve, ih]

end Junction

namespace Junction
open Spec Classical
variable {T : Type} [Scalar T]

/-- what `getSolver` does to one layer -/
def Prepared (n : Nat) (l l' : Layer T) : Prop :=
  (Scalar.eqb l.noiseParams.scaleNoise 0 = true ∧ l' = l) ∨
  (Scalar.eqb l.noiseParams.scaleNoise 0 = false ∧ ∃ u, l.createBufferedAlphaNoise n = .ok u l')

theorem noisyMode_idem (m : SolverMode) : noisyMode (noisyMode m) = noisyMode m := by cases m <;> rfl

/-- A successful solver selection. -/
theorem solverLoop_ok (n : Nat) {mode m : SolverMode} {ls ls' : List (Layer T)} (h : solverLoop n mode ls = .ok m ls') :
    m = (if ∃ l ∈ ls, Noisy l then noisyMode mode else mode) ∧ List.Forall₂ (Prepared n) ls ls' := by
  induction ls generalizing mode m ls' with
  | nil =>
    simp only [solverLoop, Out.ok, Out.mk.injEq, Except.ok.injEq] at h
    obtain ⟨rfl, rfl⟩ := h
    simp
  | cons l ls ih =>
    unfold solverLoop at h
    dsimp only at h
    have hex : (∃ x ∈ l :: ls, Noisy x) ↔ Noisy l ∨ ∃ x ∈ ls, Noisy x := by simp
    by_cases hs : Scalar.eqb l.noiseParams.scaleNoise 0 = true
    · rw [if_pos hs] at h
      rcases hr : solverLoop n (if l.temperatureSet = true then noisyMode mode else mode) ls with ⟨r, ls2⟩
      rw [hr] at h
      simp only [Out.ok, Out.mk.injEq] at h
      obtain ⟨rfl, rfl⟩ := h
      obtain ⟨h1, h2⟩ := ih hr
      refine ⟨?_, .cons (.inl ⟨hs, rfl⟩) h2⟩
      have hN : Noisy l ↔ l.temperatureSet = true := by unfold Noisy; simp [hs]
      rw [h1]
      by_cases ht : l.temperatureSet = true
      · have : ∃ x ∈ l :: ls, Noisy x := hex.2 (.inl (hN.2 ht))
        rw [if_pos ht, if_pos this]
        split
        · exact noisyMode_idem _
        · rfl
      · rw [if_neg ht]
        have : (∃ x ∈ l :: ls, Noisy x) ↔ ∃ x ∈ ls, Noisy x := by rw [hex, hN]; simp [ht]
        simp only [this]
    · rw [if_neg hs] at h
      rcases hc : l.createBufferedAlphaNoise n with ⟨_ | u, l2⟩
      · rw [hc] at h; simp [Out.ok] at h
      · rw [hc] at h
        dsimp only at h
        rcases hr : solverLoop n (noisyMode (if l.temperatureSet = true then noisyMode mode else mode)) ls with ⟨r, ls2⟩
        rw [hr] at h
        simp only [Out.ok, Out.mk.injEq] at h
        obtain ⟨rfl, rfl⟩ := h
        obtain ⟨h1, h2⟩ := ih hr
        have hs' : Scalar.eqb l.noiseParams.scaleNoise 0 = false := by simpa using hs
        refine ⟨?_, .cons (.inr ⟨hs', u, hc⟩) h2⟩
        have : ∃ x ∈ l :: ls, Noisy x := hex.2 (.inl (.inr hs'))
        rw [h1, if_pos this]
        have e : noisyMode (if l.temperatureSet = true then noisyMode mode else mode) = noisyMode mode := by
          split
          · exact noisyMode_idem _
          · rfl
        rw [e]
        split
        · exact noisyMode_idem _
        · rfl

/-- Selection for a single prepared layer. -/
theorem solverLoop_one (n : Nat) (mode : SolverMode) {l l' : Layer T} (h : Prepared n l l') :
    solverLoop n mode [l] = .ok (if Noisy l then noisyMode mode else mode) [l'] := by
  unfold solverLoop
  dsimp only
  rcases h with ⟨hs, rfl⟩ | ⟨hs, u, hc⟩
  · have hN : Noisy l' ↔ l'.temperatureSet = true := by unfold Noisy; simp [hs]
    rw [if_pos hs]
    simp only [hN]
    rfl
  · have hN : Noisy l := .inr hs
    rw [if_neg (by simp [hs]), hc, if_pos hN]
    dsimp only [solverLoop, Out.ok]
    congr 2
    split
    · exact noisyMode_idem _
    · rfl

end Junction
