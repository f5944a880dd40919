import Verif.Lemmas.PySbSmooth
import Verif.Props.PySbHessian

/-!
# Claims C81, C82 and C83: the LLG in angles, its equilibria and its modes
-/

set_option linter.unusedSectionVars false

namespace SB
open Scalar Matrix

/-! ## Right-hand side -/

/-- C81: without spin torques the right-hand side is the Landau-Lifshitz equation in the coordinates θ, φ (with the sine regularised by
1e-15): for every field whose components along the two tangent vectors are the negative slopes of the energy per Ms, the angles turn
as the magnetisation does in that field plus an excitation `Hoe` along the second tangent vector. -/
theorem C81_landau_lifshitz (l : Layer ℝ) (d : Dyn ℝ) (hp : d.torquePar = 0) (hq : d.torquePerp = 0) (hM : l.Ms ≠ 0)
    (U : (Coord → ℝ) → ℝ) (Hoe V : ℝ) (x : Coord → ℝ) (hs : Real.sin (x (.theta l.id)) + 1e-15 ≠ 0) (h : Fin 3 → ℝ)
    (h1 : h ⬝ᵥ Spec.eTheta (x (.theta l.id)) (x (.phi l.id)) = -pd U (.theta l.id) x / l.Ms)
    (h2 : (h ⬝ᵥ Spec.ePhi (x (.phi l.id))) * (Real.sin (x (.theta l.id)) + 1e-15) = -pd U (.phi l.id) x / l.Ms) :
    let θ := x (.theta l.id)
    let φ := x (.phi l.id)
    let v := Spec.landauLifshitz 1.76e11 d.alpha (Spec.unit θ φ) (h + Hoe • Spec.ePhi φ)
    (l.rhs d U Hoe V x).1 = v ⬝ᵥ Spec.eTheta θ φ ∧ (l.rhs d U Hoe V x).2 * (Real.sin θ + 1e-15) = v ⬝ᵥ Spec.ePhi φ := by
  intro θ φ v
  have hE : (EPS : ℝ) = 1e-15 := by norm_num [EPS]
  have hg : (gammaRad : ℝ) = 1.76e11 := by norm_num [gammaRad]
  have hU1 : pd U (.theta l.id) x = -(h ⬝ᵥ Spec.eTheta θ φ) * l.Ms := by rw [h1]; field_simp
  have hU2 : pd U (.phi l.id) x = -((h ⬝ᵥ Spec.ePhi φ) * (Real.sin θ + 1e-15)) * l.Ms := by rw [h2]; field_simp
  -- components of the velocity along the tangent vectors
  have c2 : Real.cos φ ^ 2 = 1 - Real.sin φ ^ 2 := by rw [Real.cos_sq']
  have c1 : Real.cos θ ^ 2 = 1 - Real.sin θ ^ 2 := by rw [Real.cos_sq']
  have t1 : ∀ k : Fin 3 → ℝ, (Spec.unit θ φ ⨯₃ k) ⬝ᵥ Spec.eTheta θ φ = -(k ⬝ᵥ Spec.ePhi φ) := by
    intro k
    simp only [cross_apply, Spec.unit, Spec.eTheta, Spec.ePhi, dotProduct, Fin.sum_univ_three]
    simp
    linear_combination (k 0 * Real.sin φ - k 1 * Real.cos φ) * Real.sin_sq_add_cos_sq θ
  have t2 : ∀ k : Fin 3 → ℝ, (Spec.unit θ φ ⨯₃ k) ⬝ᵥ Spec.ePhi φ = k ⬝ᵥ Spec.eTheta θ φ := by
    intro k
    simp only [cross_apply, Spec.unit, Spec.eTheta, Spec.ePhi, dotProduct, Fin.sum_univ_three]
    simp
    linear_combination (-(k 2) * Real.sin θ) * Real.sin_sq_add_cos_sq φ
  have o1 : Spec.ePhi φ ⬝ᵥ Spec.eTheta θ φ = 0 := by
    simp [Spec.eTheta, Spec.ePhi, dotProduct, Fin.sum_univ_three]; ring
  have o2 : Spec.ePhi φ ⬝ᵥ Spec.ePhi φ = 1 := by
    simp [Spec.ePhi, dotProduct, Fin.sum_univ_three]
    linear_combination Real.sin_sq_add_cos_sq φ
  have v1 : v ⬝ᵥ Spec.eTheta θ φ =
      -(1.76e11 / (1 + d.alpha ^ 2)) * (-(h ⬝ᵥ Spec.ePhi φ + Hoe) + d.alpha * -(h ⬝ᵥ Spec.eTheta θ φ)) := by
    simp only [v, Spec.landauLifshitz, smul_dotProduct, add_dotProduct, t1, t2, smul_eq_mul, o1, o2]; ring
  have v2 : v ⬝ᵥ Spec.ePhi φ =
      -(1.76e11 / (1 + d.alpha ^ 2)) * (h ⬝ᵥ Spec.eTheta θ φ + d.alpha * -(h ⬝ᵥ Spec.ePhi φ + Hoe)) := by
    simp only [v, Spec.landauLifshitz, smul_dotProduct, add_dotProduct, t1, t2, smul_eq_mul, o1, o2]; ring
  have ha : 1 + d.alpha ^ 2 ≠ 0 := by positivity
  unfold Layer.rhs Layer.torque
  simp only [hp, hq, hE, hg]
  rw [hU1, hU2, v1, v2]
  change Real.sin θ + 1e-15 ≠ 0 at hs
  set S := Real.sin θ + 1e-15
  constructor
  · field_simp; ring
  · field_simp; ring

private theorem density_deriv (μ Ms Ks Kv α : ℝ) (N h d : Fin 3 → ℝ) (hM : Ms ≠ 0) {m : ℝ → Fin 3 → ℝ} {m' : Fin 3 → ℝ} {t : ℝ}
    (hm : ∀ i, HasDerivAt (fun s => m s i) (m' i) t) :
    HasDerivAt (fun s => Spec.density μ Ms Ks Kv α N h d (m s)) (-Ms * (Spec.effective μ Ms Ks Kv α N h d (m t) ⬝ᵥ m')) t := by
  have h0 := hm 0
  have h1 := hm 1
  have h2 := hm 2
  have z := ((h0.mul_const (h 0 + d 0)).add (h1.mul_const (h 1 + d 1))).add (h2.mul_const (h 2 + d 2))
  have a := (h0.mul_const (Real.cos α)).add (h1.mul_const (Real.sin α))
  have n := ((((h0.pow 2).const_mul (N 0)).add ((h1.pow 2).const_mul (N 1))).add ((h2.pow 2).const_mul (N 2)))
  have := (((z.const_mul (-μ * Ms)).sub ((h2.pow 2).const_mul Ks)).sub ((a.pow 2).const_mul Kv)).add (n.const_mul (μ / 2 * Ms ^ 2))
  refine (this.congr_deriv ?_).congr_of_eventuallyEq (Filter.Eventually.of_forall fun s => ?_)
  · simp [Spec.effective, dotProduct, Fin.sum_univ_three, Matrix.vecHead, Matrix.vecTail]
    field_simp
    ring
  · simp [Spec.density, dotProduct, Fin.sum_univ_three]

/-- C81: the slopes of a layer's energy density are those of the effective field: external and DMI field, perpendicular and in-plane
anisotropy, demagnetisation. -/
theorem C81_field (l : Layer ℝ) (H : CVec ℝ) (hM : l.Ms ≠ 0) (x : Coord → ℝ) :
    let θ := x (.theta l.id)
    let φ := x (.phi l.id)
    let h := Spec.effective mu0 l.Ms l.Ks l.Kv.mag l.Kv.phi (vec l.Ndemag) (vec H) (vec l.Hdmi) (Spec.unit θ φ)
    h ⬝ᵥ Spec.eTheta θ φ = -pd (l.noInteraction H) (.theta l.id) x / l.Ms ∧
    (h ⬝ᵥ Spec.ePhi φ) * Real.sin θ = -pd (l.noInteraction H) (.phi l.id) x / l.Ms := by
  intro θ φ h
  have d1 : pd (l.noInteraction H) (.theta l.id) x = -l.Ms * (h ⬝ᵥ Spec.eTheta θ φ) := by
    unfold pd
    have e : (fun t => l.noInteraction H (Function.update x (.theta l.id) t)) = fun t =>
        Spec.density mu0 l.Ms l.Ks l.Kv.mag l.Kv.phi (vec l.Ndemag) (vec H) (vec l.Hdmi) (Spec.unit t φ) := by
      funext t; rw [density_eq]; simp [φ]
    rw [e]
    refine (density_deriv mu0 l.Ms l.Ks l.Kv.mag l.Kv.phi (vec l.Ndemag) (vec H) (vec l.Hdmi) hM (m := fun t => Spec.unit t φ)
      (m' := Spec.eTheta θ φ) (t := θ) fun i => ?_).deriv
    fin_cases i
    · exact (Real.hasDerivAt_sin θ).mul_const _
    · exact (Real.hasDerivAt_sin θ).mul_const _
    · exact Real.hasDerivAt_cos θ
  have d2 : pd (l.noInteraction H) (.phi l.id) x = -l.Ms * (h ⬝ᵥ (Real.sin θ • Spec.ePhi φ)) := by
    unfold pd
    have e : (fun t => l.noInteraction H (Function.update x (.phi l.id) t)) = fun t =>
        Spec.density mu0 l.Ms l.Ks l.Kv.mag l.Kv.phi (vec l.Ndemag) (vec H) (vec l.Hdmi) (Spec.unit θ t) := by
      funext t; rw [density_eq]; simp [θ]
    rw [e]
    refine (density_deriv mu0 l.Ms l.Ks l.Kv.mag l.Kv.phi (vec l.Ndemag) (vec H) (vec l.Hdmi) hM (m := fun t => Spec.unit θ t)
      (m' := Real.sin θ • Spec.ePhi φ) (t := φ) fun i => ?_).deriv
    fin_cases i
    · exact (Real.hasDerivAt_cos φ).const_mul _
    · exact (Real.hasDerivAt_sin φ).const_mul _
    · simpa [Spec.unit, Spec.ePhi] using hasDerivAt_const φ (Real.cos θ)
  rw [d1, d2, dotProduct_smul]
  constructor
  · field_simp
  · simp only [smul_eq_mul]; field_simp

private theorem sum_neg_mul {α : Type} (f g : α → ℝ) (c : ℝ) (ls : List α) (h : ∀ a ∈ ls, f a = -(c * g a)) :
    (ls.map f).sum = -(c * (ls.map g).sum) := by
  induction ls with
  | nil => simp
  | cons a ls ih =>
    simp only [List.map_cons, List.sum_cons]
    rw [ih fun b hb => h b (List.mem_cons_of_mem _ hb), h a (by simp)]
    ring

/-- C81: the energy decreases. Along the motion of all layers (no spin torques, no excitation) the energy of the whole stack, couplings
included, changes at the rate −γ Σ α/((1+α²) Ms t) (E_θ² + E_φ²/(sin θ)²), the sine being regularised. -/
theorem C81_dissipation (s : Solver ℝ) (H : CVec ℝ) (ls : List (Layer ℝ × Dyn ℝ))
    (h0 : ∀ ld ∈ ls, ld.2.torquePar = 0 ∧ ld.2.torquePerp = 0 ∧ ld.1.Ms ≠ 0 ∧ ld.1.thickness ≠ 0) (x : Coord → ℝ) :
    (ls.map fun ld =>
        pd (s.energy H) (.theta ld.1.id) x * (ld.1.rhs ld.2 (s.perThickness H ld.1) 0 1 x).1 +
          pd (s.energy H) (.phi ld.1.id) x * (ld.1.rhs ld.2 (s.perThickness H ld.1) 0 1 x).2).sum =
      -(1.76e11 * (ls.map fun ld => ld.2.alpha / ((1 + ld.2.alpha ^ 2) * ld.1.Ms * ld.1.thickness) *
        (pd (s.energy H) (.theta ld.1.id) x ^ 2 +
          (pd (s.energy H) (.phi ld.1.id) x / (Real.sin (x (.theta ld.1.id)) + 1e-15)) ^ 2)).sum) := by
  have hE : (EPS : ℝ) = 1e-15 := by norm_num [EPS]
  have hg : (gammaRad : ℝ) = 1.76e11 := by norm_num [gammaRad]
  refine sum_neg_mul _ _ _ ls fun ld hld => ?_
  obtain ⟨e1, e2, e3, e4⟩ := h0 ld hld
  have hp : ∀ c, pd (s.perThickness H ld.1) c x = pd (s.energy H) c x / ld.1.thickness := fun c => by
    unfold pd Solver.perThickness; rw [deriv_div_const]
  unfold Layer.rhs Layer.torque
  simp only [e1, e2, hp, hE, hg]
  have ha : 1 + ld.2.alpha ^ 2 ≠ 0 := by positivity
  set A := pd (s.energy H) (.theta ld.1.id) x
  set B := pd (s.energy H) (.phi ld.1.id) x
  generalize hS : Real.sin (x (.theta ld.1.id)) + 1e-15 = S
  rcases eq_or_ne S 0 with h | h
  · simp only [h, div_zero]
    field_simp
    ring
  · field_simp
    ring

/-- C81: in particular it never increases when the dampings are not negative and Ms and thickness positive. -/
theorem C81_decreases (s : Solver ℝ) (H : CVec ℝ) (ls : List (Layer ℝ × Dyn ℝ))
    (h0 : ∀ ld ∈ ls, ld.2.torquePar = 0 ∧ ld.2.torquePerp = 0 ∧ 0 < ld.1.Ms ∧ 0 < ld.1.thickness ∧ 0 ≤ ld.2.alpha) (x : Coord → ℝ) :
    (ls.map fun ld =>
        pd (s.energy H) (.theta ld.1.id) x * (ld.1.rhs ld.2 (s.perThickness H ld.1) 0 1 x).1 +
          pd (s.energy H) (.phi ld.1.id) x * (ld.1.rhs ld.2 (s.perThickness H ld.1) 0 1 x).2).sum ≤ 0 := by
  rw [C81_dissipation s H ls (fun ld h => ⟨(h0 ld h).1, (h0 ld h).2.1, (h0 ld h).2.2.1.ne', (h0 ld h).2.2.2.1.ne'⟩) x]
  rw [neg_nonpos]
  refine mul_nonneg (by norm_num) (List.sum_nonneg fun y hy => ?_)
  obtain ⟨ld, hld, rfl⟩ := List.mem_map.mp hy
  obtain ⟨-, -, e3, e4, e5⟩ := h0 ld hld
  positivity

/-- C81 refuted for spin torques: Gilbert's equation turns a torque T into the velocity v with v = T + α m × v. No torque that does not
depend on the damping gives the terms of the code: the damping enters them with the opposite sign. -/
theorem C81_torque_refuted (l : Layer ℝ) (x : Coord → ℝ) (hθ : x (.theta l.id) = Real.pi / 2) (hφ : x (.phi l.id) = 0) (par : ℝ)
    (hpar : par ≠ 0) :
    ¬ ∃ T : Fin 3 → ℝ, ∀ α : ℝ, ∃ v,
      Spec.Gilbert α (Spec.unit (x (.theta l.id)) (x (.phi l.id))) T v ∧
      (l.torque ⟨α, par, 0⟩ 1 x).1 / (1 + α ^ 2) = v ⬝ᵥ Spec.eTheta (x (.theta l.id)) (x (.phi l.id)) ∧
      (l.torque ⟨α, par, 0⟩ 1 x).2 / (1 + α ^ 2) * Real.sin (x (.theta l.id)) = v ⬝ᵥ Spec.ePhi (x (.phi l.id)) := by
  rintro ⟨T, hT⟩
  obtain ⟨v, g, a, b⟩ := hT 0
  obtain ⟨w, g', a', b'⟩ := hT 1
  unfold Layer.torque at a b a' b'
  unfold Spec.Gilbert at g g'
  rw [hθ, hφ] at *
  have g0 : ∀ i, v i = T i := fun i => by rw [g]; simp
  have u : Spec.unit (Real.pi / 2) 0 = ![1, 0, 0] := by
    ext i; fin_cases i <;> simp [Spec.unit]
  have w1 := congrFun g' 1
  have w2 := congrFun g' 2
  rw [u, cross_apply] at w1 w2
  simp [Spec.eTheta, Spec.ePhi, dotProduct, Fin.sum_univ_three, g0] at a b a' b' w1 w2
  apply hpar
  linarith

/-! ## Equilibria -/

/-- C82: the positions at which the LLG stands still are the positions with zero gradient, those the descents look for. -/
theorem C82_equilibria (s : Solver ℝ) (H : CVec ℝ) (ls : List (Layer ℝ × Dyn ℝ))
    (h0 : ∀ ld ∈ ls, ld.2.torquePar = 0 ∧ ld.2.torquePerp = 0 ∧ ld.1.Ms ≠ 0 ∧ ld.1.thickness ≠ 0) (eq : List ℝ)
    (hl : ls.map (·.1) = s.layers)
    (hs : ∀ l ∈ s.layers, Real.sin (subs s.layers eq (fun _ => 0) (.theta l.id)) + 1e-15 ≠ 0) :
    (∀ f ∈ rhsList s H 0 1 ls, f (subs s.layers eq fun _ => 0) = 0) ↔ ∀ g ∈ s.gradient H eq, g = 0 := by
  have hE : (EPS : ℝ) = 1e-15 := by norm_num [EPS]
  have hg : (gammaRad : ℝ) ≠ 0 := by norm_num [gammaRad]
  set x := subs s.layers eq fun _ => 0 with hx
  have hone : ∀ ld ∈ ls, ((ld.1.rhs ld.2 (s.perThickness H ld.1) 0 1 x).1 = 0 ∧ (ld.1.rhs ld.2 (s.perThickness H ld.1) 0 1 x).2 = 0) ↔
      (pd (s.energy H) (.theta ld.1.id) x = 0 ∧ pd (s.energy H) (.phi ld.1.id) x = 0) := by
    intro ld hld
    obtain ⟨e1, e2, e3, e4⟩ := h0 ld hld
    have hS := hs ld.1 (by rw [← hl]; exact List.mem_map_of_mem hld)
    have hp : ∀ c, pd (s.perThickness H ld.1) c x = pd (s.energy H) c x / ld.1.thickness := fun c => by
      unfold pd Solver.perThickness; rw [deriv_div_const]
    unfold Layer.rhs Layer.torque
    simp only [e1, e2, hp, hE]
    have ha : 1 + ld.2.alpha ^ 2 ≠ 0 := by positivity
    set A := pd (s.energy H) (.theta ld.1.id) x
    set B := pd (s.energy H) (.phi ld.1.id) x
    set S := Real.sin (x (.theta ld.1.id)) + 1e-15
    constructor
    · rintro ⟨q1, q2⟩
      have q1' : -(B / S) - ld.2.alpha * A = 0 := by
        field_simp at q1
        simp [hg] at q1
        field_simp
        linarith
      have q2' : A - ld.2.alpha * (B / S) = 0 := by
        field_simp at q2
        simp [hg] at q2
        field_simp
        linarith
      have hA : A * (1 + ld.2.alpha ^ 2) = 0 := by linear_combination q2' - ld.2.alpha * q1'
      have hA0 : A = 0 := (mul_eq_zero.mp hA).resolve_right ha
      refine ⟨hA0, ?_⟩
      rw [hA0] at q1'
      simp at q1'
      exact q1'.resolve_right hS
    · rintro ⟨q1, q2⟩
      rw [q1, q2]
      simp
  constructor
  · intro h g hgm
    unfold Solver.gradient at hgm
    simp only [List.mem_flatMap, List.mem_cons, List.not_mem_nil, or_false] at hgm
    obtain ⟨l, hlm, hgm⟩ := hgm
    rw [← hl] at hlm
    obtain ⟨ld, hld, rfl⟩ := List.mem_map.mp hlm
    have := (hone ld hld).mp
      ⟨h (fun x => (ld.1.rhs ld.2 (s.perThickness H ld.1) 0 1 x).1) (by
          unfold rhsList; simp only [List.mem_flatMap]; exact ⟨ld, hld, by simp⟩),
        h (fun x => (ld.1.rhs ld.2 (s.perThickness H ld.1) 0 1 x).2) (by
          unfold rhsList; simp only [List.mem_flatMap]; exact ⟨ld, hld, by simp⟩)⟩
    rcases hgm with rfl | rfl
    · exact this.1
    · exact this.2
  · intro h f hf
    unfold rhsList at hf
    simp only [List.mem_flatMap, List.mem_cons, List.not_mem_nil, or_false] at hf
    obtain ⟨ld, hld, hf⟩ := hf
    have hlm : ld.1 ∈ s.layers := by rw [← hl]; exact List.mem_map_of_mem hld
    have := (hone ld hld).mpr
      ⟨h (pd (s.energy H) (.theta ld.1.id) x) (by unfold Solver.gradient; simp only [List.mem_flatMap]; exact ⟨ld.1, hlm, by simp [← hx]⟩),
        h (pd (s.energy H) (.phi ld.1.id) x) (by unfold Solver.gradient; simp only [List.mem_flatMap]; exact ⟨ld.1, hlm, by simp [← hx]⟩)⟩
    rcases hf with rfl | rfl
    · exact this.1
    · exact this.2


/-! ## Modes -/

private theorem pair_get {α β : Type} (f g : α → β) (l : List α) (i : Nat) :
    (l.flatMap fun a => [f a, g a])[2 * i]? = l[i]?.map f ∧ (l.flatMap fun a => [f a, g a])[2 * i + 1]? = l[i]?.map g := by
  induction l generalizing i with
  | nil => simp
  | cons a l ih =>
    cases i with
    | zero => simp
    | succ i =>
      rw [show 2 * (i + 1) = 2 * i + 1 + 1 by omega]
      simpa using ih i

private theorem mapM_asDyn {L : List (Layer ℝ)} {ls : List (Layer ℝ × Dyn ℝ)} (h : L.mapM Layer.asDyn = .ok ls) :
    ls.map (·.1) = L ∧ ∀ ld ∈ ls, ld.1.dyn = some ld.2 := by
  induction L generalizing ls with
  | nil =>
    have : ls = [] := by simpa [pure, Except.pure] using h.symm
    simp [this]
  | cons l L ih =>
    rw [List.mapM_cons] at h
    unfold Layer.asDyn at h
    cases hd : l.dyn with
    | none => rw [hd] at h; simp [bind, Except.bind] at h
    | some d =>
      rw [hd] at h
      cases hm : L.mapM Layer.asDyn with
      | error e => unfold Layer.asDyn at hm; rw [hm] at h; simp [bind, Except.bind] at h
      | ok ls' =>
        obtain ⟨h1, h2⟩ := ih hm
        unfold Layer.asDyn at hm
        rw [hm] at h
        simp only [bind, Except.bind, pure, Except.pure, Except.ok.injEq] at h
        subst h
        simp [h1, hd]
        exact fun a b hab => h2 (a, b) hab

/-- C83: the Jacobian is built for every stack of dynamic layers and for no other; it has two rows and two columns per layer, in the
order of the list, θ before φ. -/
theorem C83_rows (s : Solver ℝ) (H : CVec ℝ) (x : Coord → ℝ) :
    ((∃ l ∈ s.layers, l.dyn = none) → s.jacobian H x = .error .attribute) ∧
    ((∀ l ∈ s.layers, l.dyn ≠ none) → ∃ rows, s.jacobian H x = .ok rows ∧ rows.length = 2 * s.layers.length ∧
      ∀ i j l d l', s.layers[i]? = some l → l.dyn = some d → s.layers[j]? = some l' →
        ∃ r0 r1, rows[2 * i]? = some r0 ∧ rows[2 * i + 1]? = some r1 ∧
          r0[2 * j]? = some (pd (fun y => (l.rhs d (s.perThickness H l) 0 1 y).1) (.theta l'.id) x) ∧
          r0[2 * j + 1]? = some (pd (fun y => (l.rhs d (s.perThickness H l) 0 1 y).1) (.phi l'.id) x) ∧
          r1[2 * j]? = some (pd (fun y => (l.rhs d (s.perThickness H l) 0 1 y).2) (.theta l'.id) x) ∧
          r1[2 * j + 1]? = some (pd (fun y => (l.rhs d (s.perThickness H l) 0 1 y).2) (.phi l'.id) x)) := by
  constructor
  · rintro ⟨l, hl, hn⟩
    have : s.layers.mapM Layer.asDyn = .error .attribute := by
      generalize s.layers = L at hl
      induction L with
      | nil => simp at hl
      | cons a L ih =>
        rw [List.mapM_cons]
        rcases ha : a.dyn with _ | d
        · simp [Layer.asDyn, ha, bind, Except.bind]
        · have hl' : l ∈ L := by
            rcases List.mem_cons.mp hl with rfl | h
            · rw [hn] at ha; cases ha
            · exact h
          simp [Layer.asDyn, ha, bind, Except.bind]
          rw [ih hl']
    unfold Solver.jacobian
    rw [this]
  · intro hd
    obtain ⟨ls, hls⟩ : ∃ ls, s.layers.mapM Layer.asDyn = .ok ls := by
      generalize s.layers = L at hd
      induction L with
      | nil => exact ⟨[], rfl⟩
      | cons a L ih =>
        obtain ⟨ls, h⟩ := ih fun l hl => hd l (List.mem_cons_of_mem _ hl)
        rcases ha : a.dyn with _ | d
        · exact absurd ha (hd a (by simp))
        · refine ⟨(a, d) :: ls, ?_⟩
          rw [List.mapM_cons, h]
          simp [Layer.asDyn, ha, bind, Except.bind, pure, Except.pure]
    obtain ⟨h1, h2⟩ := mapM_asDyn hls
    refine ⟨_, by unfold Solver.jacobian; rw [hls], ?_, ?_⟩
    · rw [List.length_map]
      unfold rhsList
      rw [List.length_flatMap]
      simp [← h1, mul_comm]
    · intro i j l d l' hi hld hj
      rw [← h1, List.getElem?_map] at hi
      rcases hli : ls[i]? with _ | ld
      · rw [hli] at hi; simp at hi
      rw [hli] at hi
      have hl : ld.1 = l := by simpa using hi
      have hd' : ld.2 = d := by
        have := h2 ld (List.mem_of_getElem? hli)
        rw [hl, hld] at this
        injection this with this
        exact this.symm
      have hr := pair_get (fun ld : Layer ℝ × Dyn ℝ => fun x => (ld.1.rhs ld.2 (s.perThickness H ld.1) 0 1 x).1)
        (fun ld => fun x => (ld.1.rhs ld.2 (s.perThickness H ld.1) 0 1 x).2) ls i
      have hc := pair_get (fun l : Layer ℝ => Coord.theta l.id) (fun l => Coord.phi l.id) s.layers j
      rw [hli] at hr
      rw [hj] at hc
      refine ⟨(symbols s.layers).map fun c => pd (fun y => (ld.1.rhs ld.2 (s.perThickness H ld.1) 0 1 y).1) c x,
        (symbols s.layers).map fun c => pd (fun y => (ld.1.rhs ld.2 (s.perThickness H ld.1) 0 1 y).2) c x, ?_, ?_, ?_, ?_, ?_, ?_⟩
      · rw [List.getElem?_map, rhsList, hr.1]; rfl
      · rw [List.getElem?_map, rhsList, hr.2]; rfl
      all_goals
        rw [List.getElem?_map, symbols]
        first | rw [hc.1] | rw [hc.2]
        simp [hl, hd']

/-- C83: at an equilibrium of the energy the linearised LLG is the energy's Hessian turned by the precession and the damping: for every
layer and every angle `c` of any layer. -/
theorem C83_linearised (l : Layer ℝ) (d : Dyn ℝ) (hp : d.torquePar = 0) (hq : d.torquePerp = 0) (U : (Coord → ℝ) → ℝ) (hU : Smooth2 U)
    (x : Coord → ℝ) (hs : Real.sin (x (.theta l.id)) + 1e-15 ≠ 0) (h1 : pd U (.theta l.id) x = 0) (h2 : pd U (.phi l.id) x = 0)
    (c : Coord) :
    let S := Real.sin (x (.theta l.id)) + 1e-15
    let k := 1.76e11 / (1 + d.alpha ^ 2) / l.Ms
    pd (fun y => (l.rhs d U 0 1 y).1) c x =
        k * (-(Spec.second U (.phi l.id) c x / S) - d.alpha * Spec.second U (.theta l.id) c x) ∧
    pd (fun y => (l.rhs d U 0 1 y).2) c x =
        k * (Spec.second U (.theta l.id) c x / S - d.alpha * (Spec.second U (.phi l.id) c x / S ^ 2)) := by
  intro S k
  have hE : (EPS : ℝ) = 1e-15 := by norm_num [EPS]
  have hg : (gammaRad : ℝ) = 1.76e11 := by norm_num [gammaRad]
  have hA : HasDerivAt (fun t => pd U (.theta l.id) (Function.update x c t)) (Spec.second U (.theta l.id) c x) (x c) :=
    (pd_diff hU (.theta l.id) c x).hasDerivAt
  have hB : HasDerivAt (fun t => pd U (.phi l.id) (Function.update x c t)) (Spec.second U (.phi l.id) c x) (x c) :=
    (pd_diff hU (.phi l.id) c x).hasDerivAt
  have hxc : Function.update x c (x c) = x := Function.update_eq_self c x
  obtain ⟨r, hr⟩ : ∃ r, HasDerivAt (fun t => 1 / (Real.sin (Function.update x c t (.theta l.id)) + 1e-15)) r (x c) := by
    have hsin : DifferentiableAt ℝ (fun t => Real.sin (Function.update x c t (.theta l.id)) + 1e-15) (x c) := by
      by_cases h : Coord.theta l.id = c
      · rw [h]
        simp only [Function.update_self]
        exact Real.differentiableAt_sin.add_const _
      · simp only [Function.update_of_ne h]
        exact differentiableAt_const _
    exact ⟨_, ((differentiableAt_const 1).div hsin (by rw [hxc]; exact hs)).hasDerivAt⟩
  have hr2 := hr.pow 2
  simp only [hxc] at hr2
  constructor
  · have := (((hr.neg.mul hB).sub (hA.const_mul d.alpha)).const_mul (gammaRad / (1 + d.alpha ^ 2))).div_const l.Ms
    unfold pd
    have e : (fun t => (l.rhs d U 0 1 (Function.update x c t)).1) = fun t =>
        gammaRad / (1 + d.alpha ^ 2) * (-(1 / (Real.sin (Function.update x c t (.theta l.id)) + 1e-15)) *
          pd U (.phi l.id) (Function.update x c t) - d.alpha * pd U (.theta l.id) (Function.update x c t)) / l.Ms := by
      funext t
      simp [Layer.rhs, Layer.torque, hp, hq, hE]
    rw [e]
    refine this.deriv.trans ?_
    simp only [hxc, h2, mul_zero, zero_add, hg, Pi.neg_apply]
    simp only [k, S]
    ring
  · have := (((hr.mul hA).sub ((hB.const_mul d.alpha).mul hr2)).const_mul (gammaRad / (1 + d.alpha ^ 2))).div_const l.Ms
    unfold pd
    have e : (fun t => (l.rhs d U 0 1 (Function.update x c t)).2) = fun t =>
        gammaRad / (1 + d.alpha ^ 2) * ((1 / (Real.sin (Function.update x c t (.theta l.id)) + 1e-15)) *
          pd U (.theta l.id) (Function.update x c t) - d.alpha * pd U (.phi l.id) (Function.update x c t) *
            (1 / (Real.sin (Function.update x c t (.theta l.id)) + 1e-15)) ^ 2) / l.Ms := by
      funext t
      simp [Layer.rhs, Layer.torque, hp, hq, hE]
    rw [e]
    refine this.deriv.trans ?_
    simp only [hxc, h1, h2, mul_zero, zero_mul, zero_add, hg, Pi.pow_apply]
    change _ * (1 / S * _ - (_ * (1 / S) ^ 2 + _)) / _ = _
    generalize S = S
    simp only [k]
    ring

/-- C83: for one layer the trace and determinant of the Jacobian that `dynamic_layer_solve` diagonalises. The determinant is the square
of the Smit-Beljers frequency (with the regularised sine) over 1 + α², so that without damping the eigenvalues are ± i times that
frequency; the thickness does not occur. -/
theorem C83_single (l : Layer ℝ) (d : Dyn ℝ) (s : Solver ℝ) (hs : s.Sized) (hl : s.layers = [l]) (hd : l.dyn = some d)
    (hN : s.dipole = none) (hp : d.torquePar = 0) (hq : d.torquePerp = 0) (ht : l.thickness ≠ 0) (H : CVec ℝ)
    (x : Coord → ℝ) (hS : Real.sin (x (.theta l.id)) + 1e-15 ≠ 0) (h1 : pd (s.energy H) (.theta l.id) x = 0)
    (h2 : pd (s.energy H) (.phi l.id) x = 0) :
    let e := l.angular H
    let θ := x (.theta l.id)
    let φ := x (.phi l.id)
    let S := Real.sin θ + 1e-15
    ∃ a b c k, s.jacobian H x = .ok [[a, b], [c, k]] ∧
      a + k = -(1.76e11 * d.alpha / ((1 + d.alpha ^ 2) * l.Ms) * (Spec.dtt e θ φ + Spec.dpp e θ φ / S ^ 2)) ∧
      a * k - b * c =
        1.76e11 ^ 2 * (Spec.dtt e θ φ * Spec.dpp e θ φ - Spec.dtp e θ φ ^ 2) / (l.Ms * S) ^ 2 / (1 + d.alpha ^ 2) := by
  intro e θ φ S
  have e1 : s.J1 = [] := List.length_eq_zero_iff.mp (by have := hs.j1; rw [hl] at this; simpa using this.symm)
  have e2 : s.J2 = [] := List.length_eq_zero_iff.mp (by have := hs.j2; rw [hl] at this; simpa using this.symm)
  have e3 : s.ilD = [] := List.length_eq_zero_iff.mp (by have := hs.d; rw [hl] at this; simpa using this.symm)
  have hE : s.energy H = fun x => ∑ k ∈ Finset.range 1,
      (fun _ => l.angular H) k (x (.theta ((fun _ => l.id) k))) (x (.phi ((fun _ => l.id) k))) * (fun _ : Nat => l.thickness) k := by
    funext x
    rw [energy_uncoupled s hs (by simp [e1]) (by simp [e2]) (by simp [e3]) hN, hl]
    simp [layerAt_eq, hl]
  obtain ⟨-, k1, k2, k3⟩ := pd2_uncoupled (n := 1) (id := fun _ => l.id) (by omega) (fun _ => l.angular H) (fun _ => l.thickness)
    x 0 (by omega)
  rw [← hE] at k1 k2 k3
  have hsm : Smooth2 (s.perThickness H l) := fun u hu => (energy_smooth s hs H u hu).div_const _
  have hdiv : ∀ c, pd (s.perThickness H l) c = fun x => pd (s.energy H) c x / l.thickness := fun c => by
    funext x; unfold pd Solver.perThickness; rw [deriv_div_const]
  have hdiv2 : ∀ c c', Spec.second (s.perThickness H l) c c' x = pd (pd (s.energy H) c) c' x / l.thickness := fun c c' => by
    change pd (pd (s.perThickness H l) c) c' x = _
    rw [hdiv]
    conv_lhs => unfold pd
    rw [deriv_div_const]
    rfl
  have q1 : pd (s.perThickness H l) (.theta l.id) x = 0 := by simp [hdiv, h1]
  have q2 : pd (s.perThickness H l) (.phi l.id) x = 0 := by simp [hdiv, h2]
  have hc := fun c => C83_linearised l d hp hq (s.perThickness H l) hsm x hS q1 q2 c
  have u1 : Spec.second (s.perThickness H l) (.theta l.id) (.theta l.id) x = Spec.dtt e θ φ := by
    rw [hdiv2, k1]; field_simp; rfl
  have u2 : Spec.second (s.perThickness H l) (.phi l.id) (.phi l.id) x = Spec.dpp e θ φ := by
    rw [hdiv2, k2]; field_simp; rfl
  have u3 : Spec.second (s.perThickness H l) (.theta l.id) (.phi l.id) x = Spec.dtp e θ φ := by
    rw [hdiv2, k3]; field_simp; rfl
  have u4 : Spec.second (s.perThickness H l) (.phi l.id) (.theta l.id) x = Spec.dtp e θ φ := by
    rw [← u3]; exact pd_comm hsm _ _ x
  have hj : s.jacobian H x = .ok
      [[pd (fun y => (l.rhs d (s.perThickness H l) 0 1 y).1) (.theta l.id) x, pd (fun y => (l.rhs d (s.perThickness H l) 0 1 y).1) (.phi l.id) x],
       [pd (fun y => (l.rhs d (s.perThickness H l) 0 1 y).2) (.theta l.id) x, pd (fun y => (l.rhs d (s.perThickness H l) 0 1 y).2) (.phi l.id) x]] := by
    unfold Solver.jacobian
    rw [hl]
    simp [Layer.asDyn, hd, rhsList, symbols]
  refine ⟨_, _, _, _, hj, ?_, ?_⟩
  all_goals
    rw [(hc (.theta l.id)).1, (hc (.phi l.id)).2]
    try rw [(hc (.phi l.id)).1, (hc (.theta l.id)).2]
    rw [u1, u2, u3, u4]
    have h0 : (1 + d.alpha ^ 2) ≠ 0 := by positivity
    have hS' : S ≠ 0 := hS
    simp only [show Real.sin (x (.theta l.id)) + 1e-15 = S from rfl]
    clear_value S
    rcases eq_or_ne l.Ms 0 with hM | hM
    · simp [hM]
    · field_simp
      ring

private theorem positive_filter (im : List ℝ) :
    ((List.range im.length).filter fun k => decide (0 < im.getD k 0)).map (fun k => im.getD k 0) = im.filter fun r => decide (0 < r) := by
  induction im with
  | nil => rfl
  | cons a im ih =>
    have h := ih
    rw [List.length_cons, List.range_succ_eq_map, List.filter_cons, List.filter_map, List.filter_cons]
    simp only [Function.comp_def, List.getD_cons_succ, List.getD_cons_zero]
    split_ifs with h0
    · rw [List.map_cons, List.map_map]
      simp only [Function.comp_def, List.getD_cons_succ, List.getD_cons_zero]
      rw [h]
    · rw [List.map_map]
      simp only [Function.comp_def, List.getD_cons_succ]
      rw [h]

/-- C83: the frequencies handed out are the positive imaginary parts over 2π, in order. -/
theorem C83_frequencies (vals : List ℂ) (vecs : List (List ℂ)) :
    (positiveModes vals vecs).1 = (vals.filter fun l => decide (0 < l.im)).map fun l => l.im / (2 * Real.pi) := by
  unfold positiveModes
  dsimp only
  rw [positive_filter, List.filter_map]
  have : ((fun r => decide (0 < r)) ∘ fun l : ℂ => l.im / (2 * Real.pi)) = fun l : ℂ => decide (0 < l.im) := by
    funext l
    simp only [Function.comp]
    rw [decide_eq_decide, div_pos_iff_of_pos_right (by positivity)]
  rw [this]

/-- C83 refuted in part: numpy returns the eigenvectors in the columns; the code picks rows. For the precession matrix ((0,1),(-1,0))
with the eigenvectors (1, i) and (1, -i) the vector handed out with the frequency 1/(2π) is (1, 1), which is not an eigenvector. -/
theorem C83_modes_refuted :
    let A : Matrix (Fin 2) (Fin 2) ℂ := !![0, 1; -1, 0]
    let vecs : Matrix (Fin 2) (Fin 2) ℂ := !![1, 1; Complex.I, -Complex.I]
    let vals : Fin 2 → ℂ := ![Complex.I, -Complex.I]
    (∀ k, A *ᵥ (fun i => vecs i k) = vals k • fun i => vecs i k) ∧
    ∃ f v, positiveModes (List.ofFn vals) (List.ofFn fun i => List.ofFn (vecs i)) = ([f], [v]) ∧ v = [1, 1] ∧
      ¬ ∃ c : ℂ, A *ᵥ ![1, 1] = c • ![1, 1] := by
  intro A vecs vals
  refine ⟨?_, 1 / (2 * Real.pi), [1, 1], ?_, rfl, ?_⟩
  · intro k
    fin_cases k <;> ext i <;> fin_cases i <;> simp [A, vecs, vals, Matrix.mulVec, dotProduct]
  · have hpi : 0 < Real.pi := Real.pi_pos
    have hneg : ¬ (0 < -1 / (2 * Real.pi)) := not_lt.mpr (div_nonpos_of_nonpos_of_nonneg (by norm_num) (by positivity))
    simp [positiveModes, vals, vecs, List.ofFn_succ, List.range_succ, hpi, hneg]
  · rintro ⟨c, hc⟩
    have h0 := congrFun hc 0
    have h1 := congrFun hc 1
    simp [A, Matrix.mulVec, dotProduct] at h0 h1
    rw [← h0] at h1
    have := congrArg Complex.re h1
    norm_num at this


/-! ## Concrete cases -/

/-- A damped film in a field along its plane. -/
noncomputable def damped : Layer ℝ := ⟨0, 1e-9, ⟨0, 0, 0⟩, 0, 1e6, ⟨0, 0, 0⟩, ⟨0, 0, 1⟩, some ⟨0.01, 0, 0⟩⟩
noncomputable def dampedSolver : Solver ℝ := ⟨[damped], [], [], none, [], none⟩

theorem damped_sized : dampedSolver.Sized := ⟨rfl, rfl, rfl⟩

private theorem damped_sin : Real.sin (Real.pi / 2) + 1e-15 ≠ 0 := by rw [Real.sin_pi_div_two]; norm_num

/-- The hypotheses of C81: the field with the required components. -/
example (U : (Coord → ℝ) → ℝ) (x : Coord → ℝ) (hθ : x (.theta 0) = Real.pi / 2) (hφ : x (.phi 0) = 0) :=
  C81_landau_lifshitz damped ⟨0.01, 0, 0⟩ rfl rfl (by norm_num [damped]) U 0 1 x (by
      have : damped.id = 0 := rfl
      rw [this, hθ]; exact damped_sin)
    ![0, -(pd U (.phi 0) x / 1e6) / (Real.sin (Real.pi / 2) + 1e-15), pd U (.theta 0) x / 1e6]
    (by
      have : damped.id = 0 := rfl
      rw [this, hθ, hφ]
      simp [Spec.eTheta, damped, dotProduct, Fin.sum_univ_three]
      ring)
    (by
      have : damped.id = 0 := rfl
      have h0 := damped_sin
      rw [this, hθ, hφ]
      simp only [Spec.ePhi, damped, dotProduct, Fin.sum_univ_three]
      have h1 : (10 ^ 15 * Real.sin (Real.pi / 2) + 1 : ℝ) ≠ 0 := by rw [Real.sin_pi_div_two]; norm_num
      simp [-Real.sin_pi_div_two]
      field_simp)
example (H : CVec ℝ) (x : Coord → ℝ) := C81_decreases dampedSolver H [(damped, ⟨0.01, 0, 0⟩)]
  (by simp [damped]) x
example (H : CVec ℝ) := C82_equilibria dampedSolver H [(damped, ⟨0.01, 0, 0⟩)] (by simp [damped]) [Real.pi / 2, 0] rfl
  (by simp [dampedSolver, subs, damped, -Real.sin_pi_div_two]; exact fun h => damped_sin (by rw [← h]; norm_num))

private theorem damped_energy (x : Coord → ℝ) : dampedSolver.energy ⟨1e4, 0, 0⟩ x =
    (-(mu0 * 1e6 * 1e4) * (Real.sin (x (.theta 0)) * Real.cos (x (.phi 0))) + mu0 / 2 * 1e6 ^ 2 * Real.cos (x (.theta 0)) ^ 2) * 1e-9 := by
  rw [energy_sum dampedSolver damped_sized]
  simp [dampedSolver, layerAt_eq, density_eq, damped, Spec.density, vec, Spec.unit, dotProduct, Fin.sum_univ_three]
  ring

/-- The hypotheses of `C83_single` (and so of `C83_linearised`) are met by the film magnetised along the field. -/
example (x : Coord → ℝ) (hθ : x (.theta 0) = Real.pi / 2) (hφ : x (.phi 0) = 0) :=
  C83_single damped ⟨0.01, 0, 0⟩ dampedSolver damped_sized rfl rfl rfl rfl rfl (by norm_num [damped]) ⟨1e4, 0, 0⟩ x
    (by
      have : damped.id = 0 := rfl
      rw [this, hθ]; exact damped_sin)
    (by
      have : damped.id = 0 := rfl
      rw [this]
      unfold pd
      simp only [damped_energy, Function.update_self, ne_eq, reduceCtorEq, not_false_eq_true, Function.update_of_ne, hθ, hφ]
      have := ((((Real.hasDerivAt_sin (Real.pi / 2)).mul_const (Real.cos 0)).const_mul (-(mu0 * 1e6 * 1e4))).add
        (((Real.hasDerivAt_cos (Real.pi / 2)).pow 2).const_mul (mu0 / 2 * 1e6 ^ 2))).mul_const (1e-9 : ℝ)
      refine this.deriv.trans ?_
      simp)
    (by
      have : damped.id = 0 := rfl
      rw [this]
      unfold pd
      simp only [damped_energy, Function.update_self, ne_eq, reduceCtorEq, not_false_eq_true, Function.update_of_ne, hθ, hφ]
      have := (((((Real.hasDerivAt_cos 0).const_mul (Real.sin (Real.pi / 2))).const_mul (-(mu0 * 1e6 * 1e4))).add_const
        (mu0 / 2 * 1e6 ^ 2 * Real.cos (Real.pi / 2) ^ 2))).mul_const (1e-9 : ℝ)
      refine this.deriv.trans ?_
      simp)

/-! ## Equality -/

/-- C86: layers that compare equal have the same energy if also their DMI fields and demagnetisation agree, which the comparison leaves
out. -/
theorem C86_equal_partial (a b : Layer ℝ) (h : a.eqLayer b = true) (hD : a.Hdmi = b.Hdmi) (hN : a.Ndemag = b.Ndemag) (H : CVec ℝ)
    (x : Coord → ℝ) : a.noInteraction H x = b.noInteraction H x ∧ a.thickness = b.thickness := by
  simp only [Layer.eqLayer, VectorObj.eqb, Bool.and_eq_true, beq_iff_eq, eqb_real, decide_eq_true_eq] at h
  obtain ⟨⟨⟨⟨h1, h2⟩, ⟨h3, h4⟩, h5⟩, h6⟩, h7⟩ := h
  rw [density_eq, density_eq, h1, h4, h5, h6, h7, hD, hN]
  exact ⟨rfl, h2⟩

/-- C86 refuted: two layers that compare equal (as dynamic layers too) with different energies and different spin torques. -/
theorem C86_equal_refuted : ∃ (a b : Layer ℝ) (d e : Dyn ℝ) (x : Coord → ℝ), a.dyn = some d ∧ b.dyn = some e ∧
    a.eqLayer b = true ∧ a.eqDynamic b d e = true ∧ a.noInteraction ⟨0, 0, 0⟩ x ≠ b.noInteraction ⟨0, 0, 0⟩ x ∧
    a.torque d 1 x ≠ b.torque e 1 x := by
  refine ⟨⟨0, 1, ⟨0, 0, 0⟩, 0, 1, ⟨0, 0, 0⟩, ⟨0, 0, 1⟩, some ⟨0, 0, 0⟩⟩, ⟨0, 1, ⟨0, 0, 0⟩, 0, 1, ⟨0, 0, 0⟩, ⟨0, 0, 0⟩, some ⟨0, 0, 1⟩⟩,
    ⟨0, 0, 0⟩, ⟨0, 0, 1⟩, fun _ => 0, rfl, rfl, ?_, ?_, ?_, ?_⟩
  · simp [Layer.eqLayer, VectorObj.eqb]
  · simp [Layer.eqDynamic, Layer.eqLayer, VectorObj.eqb]
  · have : (mu0 : ℝ) ≠ 0 := by norm_num [mu0]
    simp [Layer.noInteraction, Layer.m, CVec.dot, this]
  · simp [Layer.torque]

end SB
