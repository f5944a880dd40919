import Verif.Lemmas.Steps
import Verif.Props.UnitLength

set_option linter.unusedSectionVars false
set_option linter.unusedSimpArgs false

/-! # C20: uncoupled layers evolve as if they were alone -/

namespace Spec
/-- The runner used for one layer where a multilayer junction uses `r`. -/
def solo : Junction.Runner → Junction.Runner
  | .multi => .single
  | r => r

namespace Uncoupled
variable {l : Layer ℝ} (h : Uncoupled l)
include h

theorem setCache (c : LayerLog ℝ) : Uncoupled (l.setCache c) := { h with }
theorem setMag (m : CVec ℝ) : Uncoupled (l.setMag m) := { h with }
theorem setGpos (n : Nat) : Uncoupled (l.setGpos n) := { h with }
theorem setBfn (b : VectorAlphaNoise ℝ) : Uncoupled (l.setBfn b) := { h with }

theorem prepared {n : Nat} {l' : Layer ℝ} (hp : Junction.Prepared n l l') : Uncoupled l' := by
  rcases hp with ⟨-, rfl⟩ | ⟨-, u, hc⟩
  · exact h
  · unfold Layer.createBufferedAlphaNoise at hc
    split at hc
    · simp [Out.ok, Out.fail] at hc
    · split at hc
      · simp [Out.ok, Out.fail] at hc
      · simp only [Out.ok, Out.mk.injEq] at hc
        rw [← hc.2]
        exact { h with }

/-- helper: the field does not depend on the neighbours, nor does anything recorded -/
theorem heff (t : ℝ) (m b a b' a' fl : CVec ℝ) : l.calculateHeff t m b a fl = l.calculateHeff t m b' a' fl := by
  have hten : ∀ v : CVec ℝ, Tensor.interaction v (⟨⟨0, 0, 0⟩, ⟨0, 0, 0⟩, ⟨0, 0, 0⟩⟩ : Tensor ℝ) l.Ms = .zero := by
    intro v; ext <;> simp [Tensor.interaction]
  have hiec : ∀ (k : Layer ℝ) (m c : CVec ℝ), k.iec 0 0 m c = (CVec.zero : CVec ℝ).div (k.Ms * k.thickness) := by
    intro k m c; unfold Layer.iec
    congr 1
    ext <;> simp
  have hidmi : ∀ (k : Layer ℝ) (c : CVec ℝ), k.idmi ⟨0, 0, 0⟩ c = (CVec.zero : CVec ℝ).div (k.Ms * k.thickness) := by
    intro k c; unfold Layer.idmi
    dsimp only
    congr 1
    ext <;> simp [CVec.dot]
  have iecE : ∀ (c : LayerLog ℝ), (l.setCache c).calculateIEC t m b a = (l.setCache c).calculateIEC t m b' a' := by
    intro c
    have h' := h.setCache c
    unfold Layer.calculateIEC
    rw [h'.iecBottom, h'.iecTop, h'.quadBottom, h'.quadTop]
    simp only [hiec]
  have idmiE : ∀ (k : Layer ℝ), Uncoupled k → k.calculateIDMI t b a = k.calculateIDMI t b' a' := by
    intro k h'
    unfold Layer.calculateIDMI
    rw [h'.idmiBottom, h'.idmiTop]
    simp only [hidmi]
  unfold Layer.calculateHeff
  rw [h.dipoleTop, h.dipoleBottom, hten, hten, hten, hten]
  dsimp only
  generalize ({ l.cache with Hdipole := _ } : LayerLog ℝ) = c0
  unfold Layer.calculateHeffDipoleInjection
  dsimp only
  simp only [Layer.setCache_setCache]
  rw [iecE]
  by_cases hg : l.Guard
  · generalize hcc : ({ (l.setCache c0).cache with Hext := _, Hoe := _, Hdemag := _ } : LayerLog ℝ) = cc
    obtain ⟨c, hc⟩ := (l.setCache cc).calculateIEC_ok t m b' a' hg
    rw [hc]
    simp only [Out.bind_ok, Layer.setCache_setCache]
    rw [idmiE _ (h.setCache _)]
  · generalize hcc : ({ (l.setCache c0).cache with Hext := _, Hoe := _, Hdemag := _ } : LayerLog ℝ) = cc
    obtain ⟨c, hc⟩ := (l.setCache cc).calculateIEC_err t m b' a' hg
    rw [hc]
    rfl

theorem solve (t : ℝ) (m b a b' a' f : CVec ℝ) : l.solveLLG t m b a f = l.solveLLG t m b' a' f := by
  rcases h.reference with hr | hr | ⟨h1, h2⟩
  · have e : l.reference b a = l.reference b' a' := by unfold Layer.reference; rw [hr]
    unfold Layer.solveLLG; rw [e]
  · have e : l.reference b a = l.reference b' a' := by unfold Layer.reference; rw [hr]
    unfold Layer.solveLLG; rw [e]
  · unfold Layer.solveLLG
    simp only [h1, h2, Bool.false_eq_true, if_false]

theorem llg (t : ℝ) (m b a b' a' : CVec ℝ) : l.llg t m b a = l.llg t m b' a' := by
  unfold Layer.llg
  rw [h.heff t m b a b' a']
  by_cases hg : l.Guard
  · obtain ⟨c, hc⟩ := l.heff_ok t m b' a' .zero hg
    rw [hc]
    simp only [Out.bind_ok]
    rw [(h.setCache c).solve t m b a b' a']
  · obtain ⟨c, hc⟩ := l.heff_err t m b' a' .zero hg
    rw [hc]; rfl

/-- helper: the layer after an evaluation is still uncoupled -/
theorem llg_st (t : ℝ) (m b a : CVec ℝ) : Uncoupled (l.llg t m b a).st := by
  by_cases hg : l.Guard
  · obtain ⟨c, hc⟩ := l.llg_ok t m b a hg
    rw [hc]; exact h.setCache c
  · obtain ⟨c, hc⟩ := l.llg_err t m b a hg
    rw [hc]; exact h.setCache c

end Uncoupled
end Spec

namespace Spec.Uncoupled
open Layer Junction
variable {l : Layer ℝ} (h : Uncoupled l)
include h

theorem rk4 (t dt : ℝ) (b a b' a' : CVec ℝ) : l.rk4Step t dt b a = l.rk4Step t dt b' a' := by
  have bc : ∀ {α β : Type} (x : Out (Layer ℝ) α) (f g : α → Layer ℝ → Out (Layer ℝ) β), Uncoupled x.st →
      (∀ a s, Uncoupled s → f a s = g a s) → x.bind f = x.bind g := by
    intro α β x f g hx hf
    rcases x with ⟨_ | v, s⟩
    · rfl
    · exact hf v s hx
  unfold rk4Step
  dsimp only
  rw [h.llg t l.mag b a b' a']
  refine bc _ _ _ (h.llg_st _ _ _ _) fun f1 l1 u1 => ?_
  rw [u1.llg _ _ b a b' a']
  refine bc _ _ _ (u1.llg_st _ _ _ _) fun f2 l2 u2 => ?_
  rw [u2.llg _ _ b a b' a']
  refine bc _ _ _ (u2.llg_st _ _ _ _) fun f3 l3 u3 => ?_
  rw [u3.llg _ _ b a b' a']

theorem rk4_st {t dt : ℝ} {b a : CVec ℝ} {l' : Layer ℝ} (e : l.rk4Step t dt b a = .ok () l') : Uncoupled l' := by
  by_cases hg : l.Guard
  · obtain ⟨c, hc⟩ := l.rk4Step_ok t dt b a hg
    rw [hc, if_neg (by simp)] at e
    simp only [Out.ok, Out.mk.injEq, true_and] at e
    rw [← e]; exact (h.setCache c).setMag _
  · obtain ⟨c, hc⟩ := l.rk4Step_err t dt b a hg
    rw [hc] at e; simp [Out.ok, Out.fail] at e

theorem langevin_st {t : ℝ} {w : CVec ℝ} {l' : Layer ℝ} (e : l.langevinVector t = .ok w l') : Uncoupled l' := by
  unfold langevinVector at e
  split at e
  · simp only [Out.ok, Out.mk.injEq] at e; rw [← e.2]; exact h
  · split at e
    · simp [Out.ok, Out.fail] at e
    · simp only [Out.ok, Out.mk.injEq] at e; rw [← e.2]; exact h.setGpos _

theorem oneF_st {w : CVec ℝ} {l' : Layer ℝ} (e : l.oneFVector = .ok w l') : Uncoupled l' := by
  unfold oneFVector at e
  split at e
  · simp only [Out.ok, Out.mk.injEq] at e; rw [← e.2]; exact h
  · split at e
    · simp [Out.ok, Out.fail] at e
    · simp only [Out.ok, Out.mk.injEq] at e; rw [← e.2]; exact h.setBfn _

/-- helper: everything a call to a layer's step functions returns is that of the layer alone -/
theorem eulerHeun {ms ms' : List (CVec ℝ)} {t dt : ℝ} {i i' : Nat} {m : CVec ℝ} {l' : Layer ℝ}
    (e : eulerHeunLayer ms t dt i l = .ok m l') :
    eulerHeunLayer ms' t dt i' l = .ok m l' ∧ Uncoupled l' := by
  unfold eulerHeunLayer at e ⊢
  obtain ⟨w1, l1, e1, e⟩ := Out.bind_eq_ok e
  have u1 := h.langevin_st e1
  obtain ⟨w2, l2, e2, e⟩ := Out.bind_eq_ok e
  have u2 := u1.oneF_st e2
  dsimp only at e
  obtain ⟨f, l3, e3, e⟩ := Out.bind_eq_ok e
  have u3 : Uncoupled l3 := by have := u2.llg_st t l2.mag (below ms i) (above ms i); rw [e3] at this; exact this
  rw [e1]
  simp only [Out.bind_ok]
  rw [e2]
  simp only [Out.bind_ok]
  rw [u2.llg t l2.mag (below ms' i') (above ms' i') (below ms i) (above ms i), e3]
  simp only [Out.bind_ok]
  refine ⟨e, ?_⟩
  simp only [Out.ok, Out.mk.injEq] at e
  rw [← e.2]; exact u3

theorem predict {ms ms' : List (CVec ℝ)} {t dt : ℝ} {i i' : Nat} {s : HeunStage ℝ} {l' : Layer ℝ}
    (e : heunPredict ms t dt i l = .ok s l') :
    heunPredict ms' t dt i' l = .ok s l' ∧ Uncoupled l' := by
  unfold heunPredict at e ⊢
  obtain ⟨f, l3, e3, e⟩ := Out.bind_eq_ok e
  have u3 : Uncoupled l3 := by have := h.llg_st t l.mag (below ms i) (above ms i); rw [e3] at this; exact this
  rw [h.llg t l.mag (below ms' i') (above ms' i') (below ms i) (above ms i), e3]
  simp only [Out.bind_ok]
  obtain ⟨w1, l1, e1, e⟩ := Out.bind_eq_ok e
  have u1 := u3.langevin_st e1
  rw [e1]
  simp only [Out.bind_ok]
  obtain ⟨w2, l2, e2, e⟩ := Out.bind_eq_ok e
  have u2 := u1.oneF_st e2
  rw [e2]
  simp only [Out.bind_ok]
  refine ⟨e, ?_⟩
  simp only [Out.ok, Out.mk.injEq] at e
  rw [← e.2]; exact u2

theorem correct {ss ss' : List (HeunStage ℝ)} {t dt : ℝ} {i i' : Nat} {l' : Layer ℝ} (hs : ss'[i']? = ss[i]?)
    (e : heunCorrect ss t dt i l = .ok () l') :
    heunCorrect ss' t dt i' l = .ok () l' ∧ Uncoupled l' := by
  unfold heunCorrect at e ⊢
  rw [hs]
  rcases hsi : ss[i]? with _ | s
  · rw [hsi] at e; simp [Out.ok, Out.fail] at e
  · rw [hsi] at e
    dsimp only at e ⊢
    obtain ⟨f, l3, e3, e⟩ := Out.bind_eq_ok e
    have u3 : Uncoupled l3 := by
      have := h.llg_st (t + dt) s.mNext (below (ss.map HeunStage.mNext) i) (above (ss.map HeunStage.mNext) i)
      rw [e3] at this; exact this
    rw [h.llg (t + dt) s.mNext (below (ss'.map HeunStage.mNext) i') (above (ss'.map HeunStage.mNext) i')
      (below (ss.map HeunStage.mNext) i) (above (ss.map HeunStage.mNext) i), e3]
    simp only [Out.bind_ok]
    refine ⟨e, ?_⟩
    simp only [Out.ok, Out.mk.injEq, true_and] at e
    rw [← e]; exact u3.setMag _

end Spec.Uncoupled

namespace Junction
open Spec Layer

/-- C20, one step: if no layer is influenced by another, every layer of a junction is stepped exactly as in a
junction that contains only that layer (including noise draws and everything recorded). -/
theorem C20_step (j k : Junction ℝ) (r : Runner) (t dt : ℝ) (hu : ∀ l ∈ j.layers, Uncoupled l)
    (h1 : r = .single → j.layers.length = 1) (h : j.runStep r t dt = .ok () k) :
    (∀ l ∈ k.layers, Uncoupled l) ∧ k.layers.length = j.layers.length ∧
    ∀ (i : Nat) (l : Layer ℝ) (j' : Junction ℝ), j.layers[i]? = some l → j'.layers = [l] →
      ∃ l' k', k.layers[i]? = some l' ∧ j'.runStep (solo r) t dt = .ok () k' ∧ k'.layers = [l'] := by
  have hlen : k.layers.length = j.layers.length := by
    have := runStep_length j r t dt; rw [h] at this; exact this
  suffices ∀ (i : Nat) (l : Layer ℝ), j.layers[i]? = some l → ∃ l', k.layers[i]? = some l' ∧ Uncoupled l' ∧
      ∀ j' : Junction ℝ, j'.layers = [l] → ∃ k', j'.runStep (solo r) t dt = .ok () k' ∧ k'.layers = [l'] by
    refine ⟨?_, hlen, ?_⟩
    · intro l hl
      obtain ⟨i, hi⟩ := List.getElem?_of_mem hl
      have hlt : i < j.layers.length := by rw [← hlen]; exact (List.getElem?_eq_some_iff.1 hi).1
      obtain ⟨l', hl', hu', -⟩ := this i _ (List.getElem?_eq_getElem hlt)
      rw [hi] at hl'; cases hl'; exact hu'
    · intro i l j' hl hj'
      obtain ⟨l', hl', -, hk'⟩ := this i l hl
      obtain ⟨k', e1, e2⟩ := hk' j' hj'
      exact ⟨l', k', hl', e1, e2⟩
  intro i l hl
  have hul := hu l (List.mem_of_getElem? hl)
  cases r with
  | single =>
    obtain ⟨l0, hl0⟩ := List.length_eq_one_iff.1 (h1 rfl)
    unfold runStep runSingleLayerSolver at h
    rw [hl0] at h hl
    dsimp only at h
    have hi : i = 0 := by have := (List.getElem?_eq_some_iff.1 hl).1; simpa using this
    subst hi
    cases hl
    rcases hs : l.rk4Step t dt .zero .zero with ⟨q, l'⟩
    rw [hs] at h
    simp only [Out.ok, Out.mk.injEq] at h
    obtain ⟨rfl, rfl⟩ := h
    refine ⟨l', rfl, hul.rk4_st hs, fun j' hj' => ?_⟩
    unfold runStep solo runSingleLayerSolver
    rw [hj']
    dsimp only
    rw [hs]
    exact ⟨_, rfl, rfl⟩
  | multi =>
    unfold runStep runMultiLayerSolver at h
    dsimp only at h
    rcases hs : Out.traverse (fun i l => l.rk4Step t dt ((magCopies j.layers).getD i .zero)
      ((magCopies j.layers).getD (i + 2) .zero)) 0 j.layers with ⟨_ | bs, ls⟩
    · rw [hs] at h; simp [Out.ok, Out.fail] at h
    · rw [hs] at h
      simp only [Out.ok, Out.mk.injEq, true_and] at h
      obtain ⟨-, h2, h3⟩ := Out.traverse_ok _ hs
      obtain ⟨b, l', -, hl', hst⟩ := h3 i l hl
      refine ⟨l', by rw [← h]; exact hl', hul.rk4_st hst, fun j' hj' => ?_⟩
      rw [hul.rk4 t dt _ _ .zero .zero] at hst
      unfold runStep solo runSingleLayerSolver
      rw [hj']
      dsimp only
      rw [hst]
      exact ⟨_, rfl, rfl⟩
  | heun =>
    unfold runStep heunSolverStep at h
    dsimp only at h
    rcases hs : Out.traverse (heunPredict (j.layers.map Layer.mag) t dt) 0 j.layers with ⟨_ | ss, ls⟩
    · rw [hs] at h; simp [Out.ok, Out.fail] at h
    · rw [hs] at h
      dsimp only at h
      rcases hc : Out.traverse (heunCorrect ss t dt) 0 ls with ⟨_ | bs, ls'⟩
      · rw [hc] at h; simp [Out.ok, Out.fail] at h
      · rw [hc] at h
        simp only [Out.ok, Out.mk.injEq, true_and] at h
        obtain ⟨-, -, h3⟩ := Out.traverse_ok _ hs
        obtain ⟨s, l1, hss, hl1, hst⟩ := h3 i l hl
        obtain ⟨-, -, h4⟩ := Out.traverse_ok _ hc
        obtain ⟨u, l2, -, hl2, hst2⟩ := h4 i l1 hl1
        rw [Nat.zero_add] at hst hst2
        obtain ⟨-, u1⟩ := hul.predict (ms' := []) (i' := 0) hst
        obtain ⟨-, u2⟩ := u1.correct (ss' := ss) (i' := i) rfl hst2
        refine ⟨l2, by rw [← h]; exact hl2, u2, fun j' hj' => ?_⟩
        obtain ⟨p, -⟩ := hul.predict (ms' := [l].map Layer.mag) (i' := 0) hst
        obtain ⟨q, -⟩ := u1.correct (ss' := [s]) (i' := 0) (by rw [hss]; rfl) hst2
        unfold runStep solo heunSolverStep
        rw [hj']
        dsimp only
        have t1 : Out.traverse (heunPredict ([l].map Layer.mag) t dt) 0 [l] = .ok [s] [l1] := by
          simp only [Out.traverse, p, Out.ok]
        have t2 : Out.traverse (heunCorrect [s] t dt) 0 [l1] = .ok [()] [l2] := by
          simp only [Out.traverse, q, Out.ok]
        rw [t1]
        dsimp only [Out.ok]
        rw [t2]
        exact ⟨_, rfl, rfl⟩
  | eulerHeun =>
    unfold runStep eulerHeunSolverStep at h
    dsimp only at h
    rcases hs : Out.traverse (eulerHeunLayer (j.layers.map Layer.mag) t dt) 0 j.layers with ⟨_ | ms, ls⟩
    · rw [hs] at h; simp [Out.ok, Out.fail] at h
    · rw [hs] at h
      simp only [Out.ok, Out.mk.injEq, true_and] at h
      obtain ⟨-, -, h3⟩ := Out.traverse_ok _ hs
      obtain ⟨m, l1, hm, hl1, hst⟩ := h3 i l hl
      rw [Nat.zero_add] at hst
      obtain ⟨p, u1⟩ := hul.eulerHeun (ms' := [l].map Layer.mag) (i' := 0) hst
      have store : ∀ (ls : List (Layer ℝ)) (ms : List (CVec ℝ)) (i : Nat) (a : Layer ℝ) (m : CVec ℝ),
          ls[i]? = some a → ms[i]? = some m → (storeMags ls ms)[i]? = some (a.setMag m.normalize) := by
        intro ls
        induction ls with
        | nil => intro ms i a m ha; simp at ha
        | cons x ls ih =>
          intro ms i a m ha hm
          cases ms with
          | nil => simp at hm
          | cons y ms =>
            cases i with
            | zero => simp at ha hm; subst ha; subst hm; simp [storeMags]
            | succ i => simp at ha hm; simpa [storeMags] using ih ms i a m ha hm
      refine ⟨l1.setMag m.normalize, by rw [← h]; exact store ls ms i l1 m hl1 hm, u1.setMag _, fun j' hj' => ?_⟩
      unfold runStep solo eulerHeunSolverStep
      rw [hj']
      dsimp only
      have t1 : Out.traverse (eulerHeunLayer ([l].map Layer.mag) t dt) 0 [l] = .ok [m] [l1] := by
        simp only [Out.traverse, p, Out.ok]
      rw [t1]
      exact ⟨_, rfl, rfl⟩

/-- C20, any number of steps. -/
theorem C20_steps (j k : Junction ℝ) (r : Runner) (dt : ℝ) (s n : Nat) (hu : ∀ l ∈ j.layers, Uncoupled l)
    (h1 : r = .single → j.layers.length = 1) (h : steps r dt s n j = .ok () k) (i : Nat) (l : Layer ℝ)
    (j' : Junction ℝ) (hl : j.layers[i]? = some l) (hj' : j'.layers = [l]) :
    ∃ l' k', k.layers[i]? = some l' ∧ steps (solo r) dt s n j' = .ok () k' ∧ k'.layers = [l'] := by
  induction n generalizing s j l j' with
  | zero =>
    simp only [steps, Out.ok, Out.mk.injEq, true_and] at h
    subst h
    exact ⟨l, j', hl, rfl, hj'⟩
  | succ n ih =>
    simp only [steps] at h
    obtain ⟨e1, e2⟩ := bind_unit_ok h
    obtain ⟨hu', hlen, hst⟩ := C20_step j _ r _ dt hu h1 e1
    obtain ⟨l1, k1, hl1, hk1, hk1'⟩ := hst i l j' hl hj'
    obtain ⟨l', k', a1, a2, a3⟩ := ih _ (s + 1) hu' (fun q => by rw [hlen]; exact h1 q) e2 l1 k1 hl1 hk1'
    refine ⟨l', k', a1, ?_, a3⟩
    simp only [steps, hk1, Out.bind_ok, a2]

/-- C20 for whole runs. The full claim would drop the hypothesis `hm`; it is false then, because one noisy layer
switches the integrator of all the others from RK4 to Euler–Heun (`C20_refuted`). With the integrator the
same — a Heun or Euler–Heun request, or layers that are all noisy or all quiet — the trajectories agree. -/
theorem C20_run_partial (j k : Junction ℝ) (total dt wf : ℝ) (en en' : Bool) (mode : SolverMode)
    (hu : ∀ l ∈ j.layers, Uncoupled l) (hm : mode = .HEUN ∨ mode = .EULER_HEUN ∨ ∀ l ∈ j.layers, ∀ l' ∈ j.layers, Noisy l → Noisy l')
    (h : j.runSimulation total dt wf en mode = .ok () k) (hw : dt ≤ wf) (hdt : 0 < dt) (i : Nat) (l : Layer ℝ) (j' : Junction ℝ)
    (hl : j.layers[i]? = some l) (hj' : j'.layers = [l]) (hmr : j'.MrOk) :
    ∃ l' k', k.layers[i]? = some l' ∧ j'.runSimulation total dt wf en' mode = .ok () k' ∧ k'.layers = [l'] := by
  classical
  obtain ⟨N, W, r, m, j1, hlt, hN, hW, hg, hloop⟩ := Sim.run_inv h
  -- solver selection
  have hg0 := hg
  unfold getSolver at hg
  rcases hs : solverLoop N mode j.layers with ⟨_ | m0, ls⟩
  · rw [hs] at hg; simp [Out.ok, Out.fail] at hg
  rw [hs] at hg
  simp only [Out.ok, Out.mk.injEq, Except.ok.injEq, Prod.mk.injEq] at hg
  obtain ⟨⟨hr, hm0⟩, hj1⟩ := hg
  subst hm0
  obtain ⟨hmode, hprep⟩ := solverLoop_ok N hs
  have hj1l : j1.layers = ls := by rw [← hj1]
  obtain ⟨l1, hl1, hp1⟩ := hprep.getElem?_some hl
  have hone := solverLoop_one N mode hp1
  have hmeq : (if Noisy l then noisyMode mode else mode) = m0 := by
    rw [hmode]
    rcases hm with rfl | rfl | hall
    · simp [noisyMode]
    · simp [noisyMode]
    · have hml := List.mem_of_getElem? hl
      by_cases hnl : Noisy l
      · rw [if_pos hnl, if_pos ⟨l, hml, hnl⟩]
      · rw [if_neg hnl, if_neg]
        rintro ⟨x, hx, hnx⟩
        exact hnl (hall x hx l hml hnx)
  have hsolo : pickRunner 1 m0 = solo r := by
    rw [← hr]
    unfold pickRunner
    split
    · rfl
    · split
      · rfl
      · by_cases hn : j.layerNo = 1
        · simp [hn, solo]
        · simp [hn, solo]
  have hg' : j'.getSolver mode N = .ok (solo r, m0) (j'.withLayers [l1]) := by
    unfold getSolver
    rw [hj', hone]
    simp only [Out.ok]
    rw [hmeq]
    have : j'.layerNo = 1 := by unfold layerNo; rw [hj']; rfl
    rw [this, hsolo]; rfl
  -- the loop
  obtain ⟨e, he, hle⟩ := runLoop_evolve r dt W en hloop rfl
  rw [← steps_eq_evolve] at he
  have hu1 : ∀ x ∈ j1.layers, Uncoupled x := by
    rw [hj1l]
    intro x hx
    obtain ⟨q, hq⟩ := List.getElem?_of_mem hx
    have hlt : q < j.layers.length := by
      rw [hprep.length_eq]; exact (List.getElem?_eq_some_iff.1 hq).1
    obtain ⟨x', hx', hpx⟩ := hprep.getElem?_some (List.getElem?_eq_getElem hlt)
    rw [hq] at hx'; cases hx'
    exact (hu _ (List.getElem_mem hlt)).prepared hpx
  have hsing : r = .single → j1.layers.length = 1 := by
    rintro rfl
    exact C16_single_only_alone j j1 mode m0 N hg0
  obtain ⟨l', k2, b1, b2, b3⟩ := C20_steps j1 e r dt 0 N hu1 hsing he i l1 (j'.withLayers [l1]) (by rw [hj1l]; exact hl1) rfl
  rw [steps_eq_evolve] at b2
  have hW0 : W ≠ 0 := by
    rintro rfl
    change (if _ then _ else _) = _ at hW
    split at hW
    · simp only [Option.some.injEq, Int.toNat_eq_zero] at hW
      have h1 : (1 : ℝ) ≤ wf / dt := by rw [le_div_iff₀ hdt]; linarith
      have : (1 : ℤ) ≤ Scalar.truncR (wf / dt) := by
        unfold Scalar.truncR
        rw [if_pos (by linarith)]
        exact Int.le_floor.2 (by exact_mod_cast h1)
      omega
    · simp at hW
  obtain ⟨k', hk', hkl⟩ := evolve_runLoop (solo r) dt W en' b2 rfl hW0 (j := j'.withLayers [l1]) (by
    intro q
    have := hmr q
    rw [hj'] at this; exact this)
  refine ⟨l', k', by rw [hle]; exact b1, ?_, by rw [← hkl]; exact b3⟩
  unfold runSimulation
  rw [if_neg (by rw [hlt]; simp), hN, hW]
  dsimp only
  rw [hg']
  exact hk'

example : Uncoupled (plainOf Layer.demo) := by
  constructor <;> simp [plainOf, Layer.demo, ScalarDriver.value, ScalarDriver.null, ScalarDriver.constantDriver,
    AxialDriver.value, AxialDriver.null, Tensor.zero, CVec.zero]

/-! ### The unrestricted claim is false -/

/-- an undamped layer precessing about x -/
noncomputable def quietLayer : Layer ℝ :=
  { plainOf Layer.demo with damping := 0, anisotropyDriver := .null, externalFieldDriver := .ofVec ⟨1, 0, 0⟩ }

/-- the same layer with a temperature driver of 0 K -/
noncomputable def coldLayer : Layer ℝ := quietLayer.setTemperatureDriver .null

noncomputable def mixedJ : Junction ℝ := { demoJ with layers := [quietLayer, coldLayer] }
noncomputable def aloneJ : Junction ℝ := { demoJ with layers := [quietLayer] }

/-- helper -/
theorem quiet_uncoupled : Uncoupled quietLayer := by
  constructor <;> simp [quietLayer, plainOf, Layer.demo, ScalarDriver.value, ScalarDriver.null, ScalarDriver.constantDriver,
    AxialDriver.value, AxialDriver.null, Tensor.zero, CVec.zero]

/-- helper -/
theorem cold_uncoupled : Uncoupled coldLayer := { quiet_uncoupled with }

/-- helper -/
theorem quiet_guard : quietLayer.Guard := by simp [Guard, quietLayer, plainOf, Layer.demo]

/-- helper -/
theorem quiet_llg (t : ℝ) (m b a : CVec ℝ) : quietLayer.llgV t m b a = ⟨0, -220880 * m.z, 220880 * m.y⟩ := by
  have hh : quietLayer.heffV t m b a (quietLayer.dipV b a) .zero = ⟨1, 0, 0⟩ := by
    ext <;> simp [heffV, dipV, quietLayer, plainOf, Layer.demo, iecV, idmiV, CVec.divU, anisotropyField,
      Tensor.interaction, AxialDriver.value, AxialDriver.ofVec, AxialDriver.null, ScalarDriver.value, ScalarDriver.null,
      ScalarDriver.constantDriver, Tensor.zero, CVec.dot]
  unfold llgV llgDV
  rw [hh, plain_value quietLayer rfl rfl]
  have hd : quietLayer.damping = 0 := rfl
  rw [hd]
  ext <;> simp [smul]

/-- helper -/
theorem ratio_of_normalize {u v : CVec ℝ} (hu : u ≠ .zero) (hv : v ≠ .zero) (h : u.normalize = v.normalize) :
    u.y * v.z = u.z * v.y := by
  have h1 : u.length ≠ 0 := fun q => hu ((CVec.length_eq_zero u).1 q)
  have h2 : v.length ≠ 0 := fun q => hv ((CVec.length_eq_zero v).1 q)
  rw [CVec.normalize_of_ne u hu, CVec.normalize_of_ne v hv] at h
  rw [CVec.ext_iff] at h
  obtain ⟨-, hy, hz⟩ := h
  simp only at hy hz
  rw [div_eq_div_iff h1 h2] at hy hz
  have : u.y * v.z * (u.length * v.length) = u.z * v.y * (u.length * v.length) := by
    linear_combination v.z * u.length * hy - v.y * u.length * hz
  exact mul_right_cancel₀ (mul_ne_zero h1 h2) this

/-- helper: the time step of the counterexample -/
noncomputable def stepJ : ℝ := 1 / 220880

/-- helper -/
theorem toUInt_one : (Scalar.toUInt (stepJ / stepJ) : Option Nat) = some 1 := by
  have : stepJ / stepJ = 1 := div_self (by unfold stepJ; norm_num)
  rw [this]
  change (if _ then _ else _) = _
  have h1 : Scalar.truncR 1 = 1 := by
    unfold Scalar.truncR; rw [if_pos (by norm_num)]; simp
  rw [if_pos (by norm_num), h1]
  rfl

/-- helper: alone, the quiet layer makes one RK4 step -/
theorem alone_run : ∃ k, aloneJ.runSimulation stepJ stepJ stepJ false .RK4 = .ok () k ∧
    (k.layers.map Layer.mag)[0]? = some (CVec.normalize (⟨0, -5 / 6, 13 / 24⟩ : CVec ℝ)) := by
  have hmag : quietLayer.mag = ⟨0, 0, 1⟩ := rfl
  have hrk : ∀ t, quietLayer.rk4V t stepJ .zero .zero = CVec.normalize (⟨0, -5 / 6, 13 / 24⟩ : CVec ℝ) := by
    intro t
    unfold rk4V rk4U
    congr 1
    simp only [quiet_llg, hmag]
    ext
    · simp [rk4Combine]
    · simp only [rk4Combine, CVec.add_y, CVec.mulr_y, CVec.add_z, CVec.mulr_z, Scalar.ofSci_real_true]
      simp only [stepJ]
      norm_num
    · simp only [rk4Combine, CVec.add_y, CVec.mulr_y, CVec.add_z, CVec.mulr_z, Scalar.ofSci_real_true]
      simp only [stepJ]
      norm_num
  obtain ⟨k1, hk1, hm1⟩ : ∃ k, aloneJ.runStep .single (Scalar.lit ((0 : Nat) : ℚ) * stepJ) stepJ = .ok () k ∧
      (k.layers.map Layer.mag)[0]? = some (CVec.normalize (⟨0, -5 / 6, 13 / 24⟩ : CVec ℝ)) := by
    obtain ⟨c, hc⟩ := quietLayer.rk4Step_ok (Scalar.lit ((0 : Nat) : ℚ) * stepJ) stepJ .zero .zero quiet_guard
    rw [if_neg (by simp), hrk] at hc
    unfold runStep runSingleLayerSolver
    have hl : aloneJ.layers = [quietLayer] := rfl
    rw [hl]
    dsimp only
    rw [hc]
    exact ⟨_, rfl, rfl⟩
  have hev : evolve .single stepJ 0 1 aloneJ = .ok () k1 := by
    simp only [evolve, hk1, Out.bind_ok]
  obtain ⟨k, hk, hkl⟩ := evolve_runLoop .single stepJ 1 false hev rfl (j := aloneJ) (by omega) (by intro q; cases q)
  refine ⟨k, ?_, by rw [← hkl]; exact hm1⟩
  unfold runSimulation
  rw [if_neg (by simp), toUInt_one]
  dsimp only
  have hg : aloneJ.getSolver .RK4 1 = .ok (.single, .RK4) aloneJ := by
    rw [solver_quiet aloneJ (by
      intro l hl
      have : l = quietLayer := by simpa [aloneJ] using hl
      subst this
      rw [quiet_iff]
      exact ⟨rfl, by simp [quietLayer, plainOf, Layer.demo]⟩)]
    rfl
  rw [hg]
  exact hk

/-- C20 as stated is false: a quiet layer next to an uncoupled layer with a temperature driver (even of 0 K) does
not follow the trajectory it follows alone, because the request for RK4 is replaced by Euler–Heun for the
whole junction. -/
theorem C20_refuted : ∃ (j j' k k' : Junction ℝ) (l : Layer ℝ) (dt : ℝ), (∀ x ∈ j.layers, Uncoupled x) ∧
    j.layers[0]? = some l ∧ j'.layers = [l] ∧
    j.runSimulation dt dt dt false .RK4 = .ok () k ∧ j'.runSimulation dt dt dt false .RK4 = .ok () k' ∧
    (k.layers.map Layer.mag)[0]? ≠ (k'.layers.map Layer.mag)[0]? := by
  have hdt : (220880 : ℝ) * stepJ = 1 := by unfold stepJ; norm_num
  have hmag : quietLayer.mag = ⟨0, 0, 1⟩ := rfl
  -- the junction with the cold layer: one Euler–Heun step
  let ms : List (CVec ℝ) := mixedJ.layers.map Layer.mag
  have hA : ∀ t, ∃ l', eulerHeunLayer ms t stepJ 0 quietLayer = .ok ⟨0, -1, 1⟩ l' := by
    intro t
    obtain ⟨e1, e2⟩ := noiseless_vectors quietLayer t rfl (by simp [quietLayer, plainOf, Layer.demo])
    obtain ⟨c, hc⟩ := quietLayer.llg_ok t quietLayer.mag (below ms 0) (above ms 0) quiet_guard
    refine ⟨quietLayer.setCache c, ?_⟩
    unfold eulerHeunLayer
    simp only [e1, e2, Out.bind_ok, hc, quiet_llg]
    have hz : (CVec.zero + CVec.zero : CVec ℝ) = .zero := by ext <;> simp
    simp only [hz, stochasticTorque_zero]
    congr 1
    have hmag2 : (quietLayer.setCache c).mag = ⟨0, 0, 1⟩ := rfl
    rw [hmag2, hmag]
    ext <;> simp [hdt]
  have hB : ∀ t, ∃ m l', eulerHeunLayer ms t stepJ 1 coldLayer = .ok m l' := by
    intro t
    have e1 : ∃ w l1, coldLayer.langevinVector t = .ok w l1 ∧ l1 = coldLayer.setGpos (coldLayer.gpos + 3) := by
      unfold langevinVector langevinStd
      rw [if_neg (by simp [coldLayer, setTemperatureDriver]),
        if_neg (by simp [coldLayer, setTemperatureDriver, quietLayer, plainOf, Layer.demo])]
      exact ⟨_, _, rfl, rfl⟩
    obtain ⟨w, l1, e1, rfl⟩ := e1
    have e2 : (coldLayer.setGpos (coldLayer.gpos + 3)).oneFVector = .ok .zero (coldLayer.setGpos (coldLayer.gpos + 3)) := by
      unfold oneFVector
      rw [if_pos (by simp [coldLayer, setTemperatureDriver, quietLayer, plainOf, Layer.demo, setGpos])]
    obtain ⟨c, hc⟩ := (coldLayer.setGpos (coldLayer.gpos + 3)).llg_ok t (coldLayer.setGpos (coldLayer.gpos + 3)).mag
      (below ms 1) (above ms 1) quiet_guard
    unfold eulerHeunLayer
    simp only [e1, e2, Out.bind_ok, hc]
    exact ⟨_, _, rfl⟩
  have hstep : ∀ t, ∃ k, mixedJ.runStep .eulerHeun t stepJ = .ok () k ∧
      (k.layers.map Layer.mag)[0]? = some (CVec.normalize (⟨0, -1, 1⟩ : CVec ℝ)) := by
    intro t
    obtain ⟨la, ha⟩ := hA t
    obtain ⟨m, lb, hb⟩ := hB t
    have ht : Out.traverse (eulerHeunLayer ms t stepJ) 0 [quietLayer, coldLayer] = .ok [⟨0, -1, 1⟩, m] [la, lb] := by
      simp only [Out.traverse, ha, hb, Out.ok]
    unfold runStep eulerHeunSolverStep
    have hl : mixedJ.layers = [quietLayer, coldLayer] := rfl
    dsimp only
    have hms : mixedJ.layers.map Layer.mag = ms := rfl
    rw [hms, hl, ht]
    exact ⟨_, rfl, rfl⟩
  obtain ⟨k, hk, hkm⟩ : ∃ k, mixedJ.runSimulation stepJ stepJ stepJ false .RK4 = .ok () k ∧
      (k.layers.map Layer.mag)[0]? = some (CVec.normalize (⟨0, -1, 1⟩ : CVec ℝ)) := by
    obtain ⟨k1, hk1, hm1⟩ := hstep (Scalar.lit ((0 : Nat) : ℚ) * stepJ)
    have hev : evolve .eulerHeun stepJ 0 1 mixedJ = .ok () k1 := by
      simp only [evolve, hk1, Out.bind_ok]
    obtain ⟨k, hk, hkl⟩ := evolve_runLoop .eulerHeun stepJ 1 false hev rfl (j := mixedJ) (by omega) (by intro q; cases q)
    refine ⟨k, ?_, by rw [← hkl]; exact hm1⟩
    unfold runSimulation
    rw [if_neg (by simp), toUInt_one]
    dsimp only
    have hg : mixedJ.getSolver .RK4 1 = .ok (.eulerHeun, .EULER_HEUN) mixedJ := by
      unfold getSolver
      have : solverLoop 1 .RK4 mixedJ.layers = .ok .EULER_HEUN mixedJ.layers := by
        have hl : mixedJ.layers = [quietLayer, coldLayer] := rfl
        rw [hl]
        have s1 : quietLayer.noiseParams.scaleNoise = 0 := by simp [quietLayer, plainOf, Layer.demo]
        have s2 : coldLayer.noiseParams.scaleNoise = 0 := s1
        have t1 : quietLayer.temperatureSet = false := rfl
        have t2 : coldLayer.temperatureSet = true := rfl
        simp [solverLoop, s1, s2, t1, t2, noisyMode, Out.ok]
      rw [this]
      rfl
    rw [hg]
    exact hk
  obtain ⟨k', hk', hkm'⟩ := alone_run
  refine ⟨mixedJ, aloneJ, k, k', quietLayer, stepJ, ?_, rfl, rfl, hk, hk', ?_⟩
  · intro x hx
    have : x = quietLayer ∨ x = coldLayer := by simpa [mixedJ] using hx
    rcases this with rfl | rfl
    · exact quiet_uncoupled
    · exact cold_uncoupled
  · rw [hkm, hkm']
    intro e
    have := ratio_of_normalize (u := (⟨0, -1, 1⟩ : CVec ℝ)) (v := ⟨0, -5 / 6, 13 / 24⟩)
      (by intro q; rw [CVec.eq_zero_iff] at q; norm_num at q)
      (by intro q; rw [CVec.eq_zero_iff] at q; norm_num at q) (Option.some.inj e)
    norm_num at this

end Junction
