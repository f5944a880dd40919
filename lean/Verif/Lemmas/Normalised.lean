import Verif.Props.UnitLength

/-! For every scalar type: what a step stores as magnetisation has just been normalised. -/

set_option linter.unusedSectionVars false
set_option linter.unusedSimpArgs false

namespace Layer
variable {T : Type} [Scalar T]

theorem rk4Step_normalised {l l' : Layer T} {t dt : T} {b a : CVec T} (h : l.rk4Step t dt b a = .ok () l') :
    ∃ v : CVec T, l'.mag = v.normalize := by
  by_cases hg : l.Guard
  · obtain ⟨c, hc⟩ := l.rk4Step_ok t dt b a hg
    rw [hc] at h
    split at h
    · simp [Out.ok, Out.fail] at h
    · simp only [Out.ok, Out.mk.injEq, true_and] at h
      rw [← h]; exact ⟨_, rfl⟩
  · obtain ⟨c, hc⟩ := l.rk4Step_err t dt b a hg
    rw [hc] at h; simp [Out.ok, Out.fail] at h

end Layer

namespace Junction
open Layer
variable {T : Type} [Scalar T]

theorem storeMags_normalised (ls : List (Layer T)) (ms : List (CVec T)) (h : ms.length = ls.length) :
    ∀ l ∈ storeMags ls ms, ∃ u : CVec T, l.mag = u.normalize := by
  induction ls generalizing ms with
  | nil => intro l hl; cases ms <;> simp [storeMags] at hl
  | cons a ls ih =>
    cases ms with
    | nil => simp at h
    | cons m ms =>
      intro l hl
      simp only [storeMags, List.mem_cons] at hl
      rcases hl with rfl | hl
      · exact ⟨m, rfl⟩
      · exact ih ms (by simpa using h) l hl

theorem step_normalised {j k : Junction T} {r : Runner} {t dt : T} (h : j.runStep r t dt = .ok () k)
    (h1 : r = .single → j.layers.length = 1) : ∀ l ∈ k.layers, ∃ u : CVec T, l.mag = u.normalize := by
  cases r with
  | single =>
    have h1 := h1 rfl
    obtain ⟨l, hl⟩ := List.length_eq_one_iff.1 h1
    unfold runStep runSingleLayerSolver at h
    rw [hl] at h
    dsimp only at h
    rcases hs : l.rk4Step t dt .zero .zero with ⟨q, l'⟩
    rw [hs] at h
    simp only [Out.ok, Out.mk.injEq] at h
    obtain ⟨rfl, rfl⟩ := h
    intro l2 hl2
    simp only [List.mem_singleton] at hl2
    subst hl2
    exact rk4Step_normalised hs
  | multi =>
    unfold runStep runMultiLayerSolver at h
    dsimp only at h
    rcases hs : Out.traverse (fun i l => l.rk4Step t dt ((magCopies j.layers).getD i .zero)
      ((magCopies j.layers).getD (i + 2) .zero)) 0 j.layers with ⟨_ | bs, ls⟩
    · rw [hs] at h; simp [Out.ok, Out.fail] at h
    · rw [hs] at h
      simp only [Out.ok, Out.mk.injEq, true_and] at h
      rw [← h]
      obtain ⟨-, h2, h3⟩ := Out.traverse_ok _ hs
      intro l hl
      obtain ⟨i, hi⟩ := List.getElem?_of_mem hl
      have hlt : i < j.layers.length := by
        rw [← h2]; exact (List.getElem?_eq_some_iff.1 hi).1
      obtain ⟨b, a', -, ha', hst⟩ := h3 i j.layers[i] (List.getElem?_eq_getElem hlt)
      have e : some a' = some l := ha'.symm.trans hi
      cases e
      exact rk4Step_normalised hst
  | heun =>
    unfold runStep heunSolverStep at h
    dsimp only at h
    rcases hs : Out.traverse (heunPredict (j.layers.map Layer.mag) t dt) 0 j.layers with ⟨_ | ss, ls⟩
    · rw [hs] at h; simp [Out.ok, Out.fail] at h
    · rw [hs] at h
      dsimp only at h
      rcases hc : Out.traverse (heunCorrect ss t dt) 0 ls with ⟨_ | bs, ls'⟩
      · rw [hc] at h; simp [Out.ok, Out.fail] at h
      · rw [hc] at h
        simp only [Out.ok, Out.mk.injEq, true_and] at h
        rw [← h]
        obtain ⟨-, h2, h3⟩ := Out.traverse_ok _ hc
        intro l hl
        obtain ⟨i, hi⟩ := List.getElem?_of_mem hl
        have hlt : i < ls.length := by
          rw [← h2]; exact (List.getElem?_eq_some_iff.1 hi).1
        obtain ⟨b, a', -, ha', hst⟩ := h3 i ls[i] (List.getElem?_eq_getElem hlt)
        have e : some a' = some l := ha'.symm.trans hi
        cases e
        unfold heunCorrect at hst
        split at hst
        · simp [Out.ok, Out.fail] at hst
        · obtain ⟨f, l1, -, hst⟩ := Out.bind_eq_ok hst
          simp only [Out.ok, Out.mk.injEq, true_and] at hst
          rw [← hst]
          exact ⟨_, rfl⟩
  | eulerHeun =>
    unfold runStep eulerHeunSolverStep at h
    dsimp only at h
    rcases hs : Out.traverse (eulerHeunLayer (j.layers.map Layer.mag) t dt) 0 j.layers with ⟨_ | ms, ls⟩
    · rw [hs] at h; simp [Out.ok, Out.fail] at h
    · rw [hs] at h
      simp only [Out.ok, Out.mk.injEq, true_and] at h
      rw [← h]
      obtain ⟨h1, h2, -⟩ := Out.traverse_ok _ hs
      exact storeMags_normalised ls ms (h1.trans h2.symm)

theorem run_normalised {j k : Junction T} {total dt wf : T} {en : Bool} {mode : SolverMode}
    (h : j.runSimulation total dt wf en mode = .ok () k) (h0 : Scalar.toUInt (total / dt) ≠ some 0) :
    ∀ l ∈ k.layers, ∃ u : CVec T, l.mag = u.normalize := by
  obtain ⟨N, W, r, m, j1, -, hN, -, hg, hl⟩ := Sim.run_inv h
  have hN0 : N ≠ 0 := fun e => h0 (by rw [hN, e])
  obtain ⟨n, rfl⟩ := Nat.exists_eq_succ_of_ne_zero hN0
  obtain ⟨e, he, hle⟩ := runLoop_evolve r dt W en hl rfl
  rw [hle]
  rw [Nat.succ_eq_add_one, evolve_add] at he
  obtain ⟨h1, h2⟩ := bind_unit_ok he
  simp only [evolve] at h2
  obtain ⟨h3, h4⟩ := bind_unit_ok h2
  simp only [evolve, Out.ok, Out.mk.injEq, true_and] at h4
  rw [← h4]
  refine step_normalised h3 ?_
  rintro rfl
  have hlen := C16_single_only_alone j j1 mode m _ hg
  have hev : ∀ (n i : Nat) (j : Junction T), (evolve .single dt i n j).st.layers.length = j.layers.length := by
    intro n
    induction n with
    | zero => intro i j; rfl
    | succ n ih =>
      intro i j
      have hs := runStep_length j .single (Scalar.lit (i : ℚ) * dt) dt
      simp only [evolve]
      rcases hq : j.runStep .single (Scalar.lit (i : ℚ) * dt) dt with ⟨_ | _, q⟩
      · rw [hq] at hs; exact hs
      · rw [hq] at hs; exact (ih _ _).trans hs
  rw [hev, hlen]

end Junction
