import Verif.Props.PySbScan
import Std.Data.String.ToInt

/-!
# More on the Smit-Beljers solver: C55, C56, C81, C85, C86
-/

set_option linter.unusedSectionVars false

namespace SB
open Scalar Matrix

theorem name_inj (p q : String) (a b : Int) (h : p ++ toString a ++ q = p ++ toString b ++ q) : a = b := by
  rw [String.append_left_inj, String.append_right_inj] at h
  exact Int.repr_injective h

/-- C55: the values substituted for the symbols: every layer's magnetisation and thickness stands under its own id. -/
theorem C55_symbols (s : Solver ℝ) (hn : (s.layers.map (·.id)).Nodup) (l : Layer ℝ) (hl : l ∈ s.layers) :
    s.msSubs.lookup ("M_{" ++ toString l.id ++ "}") = some l.Ms ∧
    s.msSubs.lookup ("t_{" ++ toString l.id ++ "}") = some l.thickness := by
  have key : ∀ (p q : String) (f : Layer ℝ → ℝ) (ls : List (Layer ℝ)), (ls.map (·.id)).Nodup → l ∈ ls →
      (ls.map fun l => (p ++ toString l.id ++ q, f l)).lookup (p ++ toString l.id ++ q) = some (f l) := by
    intro p q f ls
    induction ls with
    | nil => simp
    | cons a ls ih =>
      intro hn hl
      simp only [List.map_cons, List.nodup_cons] at hn
      simp only [List.map_cons, List.lookup_cons]
      rcases List.mem_cons.1 hl with rfl | hl
      · simp
      · have : (p ++ toString l.id ++ q == p ++ toString a.id ++ q) = false := by
          rw [beq_eq_false_iff_ne]
          intro e
          have := name_inj p q _ _ e
          exact hn.1 (List.mem_map.2 ⟨l, hl, this⟩)
        rw [this]
        exact ih hn.2 hl
  unfold Solver.msSubs
  constructor
  · rw [List.lookup_append, key _ _ _ _ hn hl]; rfl
  · rw [List.lookup_append, key _ _ _ _ hn hl]
    have : (s.layers.map fun l => ("M_{" ++ toString l.id ++ "}", l.Ms)).lookup ("t_{" ++ toString l.id ++ "}") = none := by
      rw [List.lookup_eq_none_iff]
      simp only [List.mem_map, forall_exists_index, and_imp]
      rintro _ a - rfl
      rw [bne_iff_ne]
      intro e
      have := congrArg (fun s => s.toList.head?) e
      simp at this
    rw [this]; rfl

/-- C81, what the spin torques are: Gilbert's equation with the torque `τ⊥ m × z - τ∥ m × (m × z)`, solved with the negative of the
damping. -/
theorem C81_torque_actual (l : Layer ℝ) (d : Dyn ℝ) (V : ℝ) (x : Coord → ℝ) :
    let θ := x (.theta l.id)
    let φ := x (.phi l.id)
    let m := Spec.unit θ φ
    let z : Fin 3 → ℝ := ![0, 0, 1]
    ∃ v, Spec.Gilbert (-d.alpha) m ((d.torquePerp * V) • (m ⨯₃ z) - (d.torquePar * V) • (m ⨯₃ (m ⨯₃ z))) v ∧
      (l.torque d V x).1 / (1 + d.alpha ^ 2) = v ⬝ᵥ Spec.eTheta θ φ ∧
      (l.torque d V x).2 / (1 + d.alpha ^ 2) * Real.sin θ = v ⬝ᵥ Spec.ePhi φ := by
  intro θ φ m z
  have ha : 1 + d.alpha ^ 2 ≠ 0 := by positivity
  set A := (l.torque d V x).1 / (1 + d.alpha ^ 2) with hA
  set B := (l.torque d V x).2 / (1 + d.alpha ^ 2) * Real.sin θ with hB
  have hs := Real.sin_sq_add_cos_sq θ
  have hp := Real.sin_sq_add_cos_sq φ
  have hA' : A * (1 + d.alpha ^ 2) = Real.sin θ * (-(d.torquePar * V) - d.alpha * (d.torquePerp * V)) := by
    rw [hA]; unfold Layer.torque; field_simp; ring
  have hB' : B * (1 + d.alpha ^ 2) = (-(d.torquePerp * V) + d.alpha * (d.torquePar * V)) * Real.sin θ := by
    rw [hB]; unfold Layer.torque; field_simp
  have e1 : A = -(d.torquePar * V) * Real.sin θ + d.alpha * B := by
    apply mul_right_cancel₀ ha
    linear_combination hA' - d.alpha * hB'
  have e2 : B = -(d.torquePerp * V) * Real.sin θ - d.alpha * A := by
    apply mul_right_cancel₀ ha
    linear_combination hB' + d.alpha * hA'
  refine ⟨A • Spec.eTheta θ φ + B • Spec.ePhi φ, ?_, ?_, ?_⟩
  · unfold Spec.Gilbert
    have c1 : m ⨯₃ z = -(Real.sin θ) • Spec.ePhi φ := by
      ext i; fin_cases i <;> simp [m, z, Spec.unit, Spec.ePhi, cross_apply]
    have c2 : m ⨯₃ Spec.ePhi φ = -Spec.eTheta θ φ := by
      ext i; fin_cases i <;> simp [m, Spec.unit, Spec.ePhi, Spec.eTheta, cross_apply]
      linear_combination Real.sin θ * hp
    have c3 : m ⨯₃ Spec.eTheta θ φ = Spec.ePhi φ := by
      ext i; fin_cases i <;> simp [m, Spec.unit, Spec.ePhi, Spec.eTheta, cross_apply]
      · linear_combination -Real.sin φ * hs
      · linear_combination Real.cos φ * hs
      · ring
    rw [c1]
    simp only [map_smul, map_add, c2, c3, smul_neg]
    ext i
    simp only [Pi.add_apply, Pi.smul_apply, Pi.sub_apply, Pi.neg_apply, smul_eq_mul]
    linear_combination Spec.eTheta θ φ i * e1 + Spec.ePhi φ i * e2
  · simp [Spec.eTheta, Spec.ePhi, dotProduct, Fin.sum_univ_three]
    linear_combination (-A) * hs - A * Real.cos θ ^ 2 * hp
  · simp [Spec.eTheta, Spec.ePhi, dotProduct, Fin.sum_univ_three]
    linear_combination -B * hp

/-- C85: the factors with which an excitation enters the right-hand sides of the layer in position `q`: a field along the second tangent
vector enters by itself and with the damping, a voltage with the spin torques; nothing else depends on them. -/
theorem C85_drive (s : Solver ℝ) (H : CVec ℝ) (ls : List (Layer ℝ × Dyn ℝ)) (v : ℝ) (x : Coord → ℝ) (q : ℕ) (l : Layer ℝ) (d : Dyn ℝ)
    (hq : ls[q]? = some (l, d)) (hM : l.Ms ≠ 0) :
    s.responseV H ls .hoe v x (2 * q) = 1.76e11 / (1 + d.alpha ^ 2) ∧
    s.responseV H ls .hoe v x (2 * q + 1) = 1.76e11 / (1 + d.alpha ^ 2) * (d.alpha / (Real.sin (x (.theta l.id)) + 1e-15)) ∧
    s.responseV H ls .vp v x (2 * q) =
      1.76e11 / (1 + d.alpha ^ 2) * (Real.sin (x (.theta l.id)) * (-d.torquePar - d.alpha * d.torquePerp)) / l.Ms ∧
    s.responseV H ls .vp v x (2 * q + 1) = 1.76e11 / (1 + d.alpha ^ 2) * (-d.torquePerp + d.alpha * d.torquePar) / l.Ms := by
  have hE : (EPS : ℝ) = 1e-15 := by norm_num [EPS]
  have hg : (gammaRad : ℝ) = 1.76e11 := by norm_num [gammaRad]
  have get : ∀ (ls : List (Layer ℝ × Dyn ℝ)) (q : ℕ), ls[q]? = some (l, d) → ∀ Hoe V,
      (rhsList s H Hoe V ls).getD (2 * q) (fun _ => 0) = (fun x => (l.rhs d (s.perThickness H l) Hoe V x).1) ∧
      (rhsList s H Hoe V ls).getD (2 * q + 1) (fun _ => 0) = (fun x => (l.rhs d (s.perThickness H l) Hoe V x).2) := by
    intro ls
    induction ls with
    | nil => simp
    | cons a ls ih =>
      intro q hq Hoe V
      cases q with
      | zero =>
        simp only [List.getElem?_cons_zero, Option.some.injEq] at hq
        subst hq
        simp [rhsList]
      | succ q =>
        obtain ⟨h1, h2⟩ := ih q (by simpa using hq) Hoe V
        rw [show 2 * (q + 1) = 2 * q + 1 + 1 by ring]
        simp only [rhsList, List.flatMap_cons, List.cons_append, List.nil_append, List.getD_cons_succ] at h1 h2 ⊢
        exact ⟨h1, h2⟩
  have ha : 1 + d.alpha ^ 2 ≠ 0 := by positivity
  have aff : ∀ (a b : ℝ), deriv (fun u : ℝ => a + b * u) v = b := by
    intro a b
    rw [deriv_const_add, deriv_const_mul _ differentiableAt_id]
    simp
  unfold Solver.responseV
  refine ⟨?_, ?_, ?_, ?_⟩
  · simp only [(get ls q hq _ _).1, exciteValues, Layer.rhs, hE, hg]
    refine Eq.trans (congrArg (fun f => deriv f v) (funext fun u => ?_)) (aff (1.76e11 / (1 + d.alpha ^ 2) * ((-(1 / (Real.sin (x (.theta l.id)) + 1e-15))) * pd (s.perThickness H l) (.phi l.id) x -
      d.alpha * pd (s.perThickness H l) (.theta l.id) x + (l.torque d 0 x).1) / l.Ms) (1.76e11 / (1 + d.alpha ^ 2)))
    generalize 1 / (Real.sin (x (.theta l.id)) + 1e-15) = i
    rw [show (l.torque d 0 x).1 = (0 : ℝ) by simp [Layer.torque]]
    field_simp
    ring
  · simp only [(get ls q hq _ _).2, exciteValues, Layer.rhs, hE, hg]
    refine Eq.trans (congrArg (fun f => deriv f v) (funext fun u => ?_)) (aff (1.76e11 / (1 + d.alpha ^ 2) * ((1 / (Real.sin (x (.theta l.id)) + 1e-15)) * pd (s.perThickness H l) (.theta l.id) x -
      d.alpha * pd (s.perThickness H l) (.phi l.id) x * (1 / (Real.sin (x (.theta l.id)) + 1e-15)) ^ 2 + (l.torque d 0 x).2) / l.Ms)
      (1.76e11 / (1 + d.alpha ^ 2) * (d.alpha / (Real.sin (x (.theta l.id)) + 1e-15))))
    rw [show (l.torque d 0 x).2 = (0 : ℝ) by simp [Layer.torque]]
    rw [div_eq_mul_one_div d.alpha]
    generalize 1 / (Real.sin (x (.theta l.id)) + 1e-15) = i
    field_simp
    ring
  · simp only [(get ls q hq _ _).1, exciteValues, Layer.rhs, Layer.torque, hE, hg]
    refine Eq.trans (congrArg (fun f => deriv f v) (funext fun u => ?_)) (aff (1.76e11 / (1 + d.alpha ^ 2) * ((-(1 / (Real.sin (x (.theta l.id)) + 1e-15))) * pd (s.perThickness H l) (.phi l.id) x -
      d.alpha * pd (s.perThickness H l) (.theta l.id) x) / l.Ms)
      (1.76e11 / (1 + d.alpha ^ 2) * (Real.sin (x (.theta l.id)) * (-d.torquePar - d.alpha * d.torquePerp)) / l.Ms))
    ring
  · simp only [(get ls q hq _ _).2, exciteValues, Layer.rhs, Layer.torque, hE, hg]
    refine Eq.trans (congrArg (fun f => deriv f v) (funext fun u => ?_)) (aff (1.76e11 / (1 + d.alpha ^ 2) * ((1 / (Real.sin (x (.theta l.id)) + 1e-15)) * pd (s.perThickness H l) (.theta l.id) x -
      d.alpha * pd (s.perThickness H l) (.phi l.id) x * (1 / (Real.sin (x (.theta l.id)) + 1e-15)) ^ 2) / l.Ms)
      (1.76e11 / (1 + d.alpha ^ 2) * (-d.torquePerp + d.alpha * d.torquePar) / l.Ms))
    ring

/-- C86: dynamic layers that compare equal have the same right-hand sides for every energy, if also their spin torques agree, which the
comparison leaves out; and they compare equal as layers. -/
theorem C86_dynamic_partial (a b : Layer ℝ) (d e : Dyn ℝ) (h : a.eqDynamic b d e = true) (hp : d.torquePar = e.torquePar)
    (hq : d.torquePerp = e.torquePerp) (U : (Coord → ℝ) → ℝ) (Hoe V : ℝ) (x : Coord → ℝ) :
    a.rhs d U Hoe V x = b.rhs e U Hoe V x ∧ a.eqLayer b = true := by
  simp only [Layer.eqDynamic, Bool.and_eq_true, eqb_real, decide_eq_true_eq] at h
  obtain ⟨h, ha⟩ := h
  refine ⟨?_, h⟩
  simp only [Layer.eqLayer, VectorObj.eqb, Bool.and_eq_true, beq_iff_eq, eqb_real, decide_eq_true_eq] at h
  obtain ⟨⟨⟨⟨h1, h2⟩, ⟨h3, h4⟩, h5⟩, h6⟩, h7⟩ := h
  unfold Layer.rhs Layer.torque
  rw [h1, h7, ha, hp, hq]

theorem mapM_ok {α β : Type} (g : α → Except Err β) (l : List α) (bs : List β) (h : l.mapM g = .ok bs) :
    List.Forall₂ (fun a b => g a = .ok b) l bs := by
  induction l generalizing bs with
  | nil => cases h; exact .nil
  | cons a l ih =>
    rw [List.mapM_cons] at h
    rcases ha : g a with e | b
    · rw [ha] at h; cases h
    rw [ha] at h
    rcases hb : l.mapM g with e | cs
    · rw [hb] at h; cases h
    rw [hb] at h
    cases h
    exact .cons ha (ih cs hb)

/-- C56, the choice of the computation: without a field `ValueError`, with a start of the wrong length the assertion fails; else a first
layer with damping gives the modes of the LLG unless the Smit-Beljers form is forced; one layer gives the closed formula; several give
the closed formula layer by layer when that is forced, and the numeric search otherwise. All are made at the position the descent gives. -/
theorem C56_choice (s : Solver ℝ) (descend : CVec ℝ → List ℝ → List ℝ) (init : List ℝ) (single sb : Bool) (l : Layer ℝ)
    (ls : List (Layer ℝ)) (hl : s.layers = l :: ls) :
    (s.H = none → s.solve descend init single sb = .error .valueError) ∧
    ∀ Hv, s.H = some Hv →
      (init.length ≠ 2 * s.layers.length → s.solve descend init single sb = .error .assertion) ∧
      (init.length = 2 * s.layers.length →
        (sb = false → l.dyn ≠ none → s.solve descend init single sb = .ok (descend Hv.getCartesian init, .modes)) ∧
        ((sb = true ∨ l.dyn = none) → ls ≠ [] → single = false →
          s.solve descend init single sb = .ok (descend Hv.getCartesian init, .numeric)) ∧
        ((sb = true ∨ l.dyn = none) → ls = [] ∨ single = true → ∀ r, s.solve descend init single sb = .ok r →
          r.1 = descend Hv.getCartesian init ∧ ∃ fs : List (Option ℝ), r.2 = .single fs ∧ fs.length = s.layers.length ∧
            ∀ i f, fs[i]? = some f → ∃ g, s.singleResonance Hv.getCartesian i (descend Hv.getCartesian init) = .ok g ∧
              f = g.map (· / 1e9))) := by
  refine ⟨fun h => by simp [Solver.solve, h], fun Hv hH => ⟨fun hi => ?_, fun hi => ⟨fun h1 h2 => ?_, fun h1 h2 h3 => ?_, fun h1 h2 r hr => ?_⟩⟩⟩
  · simp [Solver.solve, hH, hi]
  · obtain ⟨d, hd⟩ := Option.ne_none_iff_exists'.1 h2
    simp only [Solver.solve, hH]
    rw [if_neg (by simpa using hi), hl]
    simp [h1, hd]
  · simp only [Solver.solve, hH]
    rw [if_neg (by simpa using hi)]
    have hc : (!sb && l.dyn.isSome) = false := by rcases h1 with h | h <;> simp [h]
    have hlen : (l :: ls).length ≠ 1 := by simpa using h2
    rw [hl]
    simp only [hc, h3]
    rw [if_neg (by simp), if_neg hlen, if_neg (by simp)]
  · simp only [Solver.solve, hH] at hr
    rw [if_neg (by simpa using hi), hl] at hr
    have hc : (!sb && l.dyn.isSome) = false := by rcases h1 with h | h <;> simp [h]
    simp only [hc] at hr
    rw [if_neg (by simp)] at hr
    split at hr
    · rename_i h1'
      rcases hf : s.singleResonance Hv.getCartesian 0 (descend Hv.getCartesian init) with e | f
      · rw [hf] at hr; cases hr
      rw [hf] at hr
      simp only [Except.ok.injEq] at hr
      subst hr
      refine ⟨rfl, _, rfl, by rw [hl]; simpa using h1'.symm, fun i g hg => ?_⟩
      cases i with
      | zero =>
        simp only [List.getElem?_cons_zero, Option.some.injEq] at hg
        refine ⟨f, hf, ?_⟩
        exact hg.symm
      | succ i => simp at hg
    · rename_i h1'
      have hsingle : single = true := by
        rcases h2 with h | h
        · rw [h] at h1'; simp at h1'
        · exact h
      rw [if_pos hsingle] at hr
      rcases hf : (List.range (l :: ls).length).mapM fun i => s.singleResonance Hv.getCartesian i (descend Hv.getCartesian init) with e | fs
      · rw [hf] at hr; cases hr
      rw [hf] at hr
      simp only [Except.ok.injEq] at hr
      subst hr
      have hall := mapM_ok _ _ _ hf
      refine ⟨rfl, _, rfl, by rw [hl]; simpa using hall.length_eq.symm, fun i g hg => ?_⟩
      rw [List.getElem?_map] at hg
      obtain ⟨f, hfi, rfl⟩ := Option.map_eq_some_iff.1 hg
      obtain ⟨hi1, hi2⟩ := List.getElem?_eq_some_iff.1 hfi
      have := List.forall₂_iff_get.1 hall
      have h3 := this.2 i (by rw [hall.length_eq]; exact hi1) hi1
      simp only [List.get_eq_getElem, List.getElem_range, hi2] at h3
      exact ⟨f, h3, rfl⟩

/-- A layer and a solver of two such layers, for the hypotheses above. -/
noncomputable def someLayer (id : Int) : Layer ℝ := ⟨id, 2, ⟨0, 0, 0⟩, 1, 3, ⟨0, 0, 0⟩, ⟨0, 0, 1⟩, some ⟨1, 2, 3⟩⟩

noncomputable def twoSolver : Solver ℝ :=
  { layers := [someLayer 0, someLayer 1], J1 := [1], J2 := [0], H := some ⟨0, 0, 1⟩, ilD := [⟨0, 0, 0⟩], dipole := none }

example : (twoSolver.layers.map (·.id)).Nodup ∧ someLayer 1 ∈ twoSolver.layers := by simp [twoSolver, someLayer]
example : [(someLayer 0, (⟨1, 2, 3⟩ : Dyn ℝ))][0]? = some (someLayer 0, ⟨1, 2, 3⟩) ∧ (someLayer 0).Ms ≠ 0 := by simp [someLayer]
example : (someLayer 0).eqDynamic (someLayer 0) ⟨1, 2, 3⟩ ⟨1, 2, 3⟩ = true := by
  simp [Layer.eqDynamic, Layer.eqLayer, VectorObj.eqb, someLayer]
example : twoSolver.H ≠ none ∧ ([0, 0, 0, 0] : List ℝ).length = 2 * twoSolver.layers.length ∧ (someLayer 0).dyn ≠ none := by
  simp [twoSolver, someLayer]

end SB
