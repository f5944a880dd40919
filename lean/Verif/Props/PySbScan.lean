import Verif.Props.PySbDyn

/-!
# Claims C84 and C85: field scans and the linear response of the spin diode
-/

set_option linter.unusedSectionVars false

namespace SB
open Scalar Matrix

/-! ## Field scans -/

section scan
variable {T : Type} [Scalar T]

private theorem go_spec (descend roots : VectorObj T → List T → List T) (hs : List (VectorObj T)) (p : List T) :
    (fieldScan.go descend roots hs p).length = hs.length ∧
    ∀ k h, hs[k]? = some h → ∃ eq, (fieldScan.go descend roots hs p)[k]? = some (eq, roots h eq, h) ∧
      (k = 0 → eq = descend h p) ∧
      ∀ j, k = j + 1 → ∃ r, (fieldScan.go descend roots hs p)[j]? = some r ∧ eq = descend h r.1 := by
  induction hs generalizing p with
  | nil => simp [fieldScan.go]
  | cons a hs ih =>
    obtain ⟨h1, h2⟩ := ih (descend a p)
    rw [fieldScan.go]
    refine ⟨by simp [h1], ?_⟩
    intro k h hk
    cases k with
    | zero =>
      simp only [List.getElem?_cons_zero, Option.some.injEq] at hk
      subst hk
      exact ⟨descend a p, by simp, fun _ => rfl, fun j hj => by omega⟩
    | succ k =>
      rw [List.getElem?_cons_succ] at hk
      obtain ⟨eq, e1, e2, e3⟩ := h2 k h hk
      refine ⟨eq, by simpa using e1, fun h => by omega, ?_⟩
      intro j hj
      obtain rfl : k = j := by omega
      cases k with
      | zero => exact ⟨_, by simp; rfl, e2 rfl⟩
      | succ k =>
        obtain ⟨r, r1, r2⟩ := e3 k rfl
        exact ⟨r, by simpa using r1, r2⟩

/-- C84, started from a given position: one result per field, in order, with the field as given; every search starts from the previous
equilibrium (the first from the given position); the caller's fields stay as they are. Missing: scans without a given position, see
`C84_refuted`. -/
theorem C84_given_partial (n : Nat) (descend roots : VectorObj T → List T → List T) (Hs : List (VectorObj T)) (p : List T) :
    ∃ res, fieldScan n descend roots Hs (some p) = .ok (res, Hs) ∧ res.length = Hs.length ∧
      ∀ k h, Hs[k]? = some h → ∃ eq, res[k]? = some (eq, roots h eq, h) ∧ (k = 0 → eq = descend h p) ∧
        ∀ j, k = j + 1 → ∃ r, res[j]? = some r ∧ eq = descend h r.1 :=
  ⟨_, rfl, go_spec descend roots Hs p⟩

/-- C84 refuted: without a start position the caller's first field is given the magnitude 1, and the first result belongs to that field;
whatever the fields, layers and searches. -/
theorem C84_refuted (n : Nat) (descend roots : VectorObj T → List T → List T) (h : VectorObj T) (hs : List (VectorObj T)) :
    ∃ res, fieldScan n descend roots (h :: hs) none = .ok (res, { h with mag := 1 } :: hs) ∧
      ∃ r, res[0]? = some r ∧ r.2.2 = { h with mag := 1 } ∧
        (h.mag ≠ 1 → r.2.2 ≠ h ∧ ({ h with mag := 1 } :: hs : List (VectorObj T)) ≠ h :: hs) := by
  refine ⟨_, rfl, _, by simp [fieldScan.go]; rfl, rfl, ?_⟩
  intro hm
  constructor
  · intro he
    exact hm (congrArg VectorObj.mag he).symm
  · intro he
    injection he with he _
    exact hm (congrArg VectorObj.mag he).symm

/-- C84: the start position is the direction of the first field, for every layer; an empty scan without start position fails. -/
theorem C84_start (n : Nat) (descend roots : VectorObj T → List T → List T) (h : VectorObj T) (hs : List (VectorObj T)) :
    fieldScan n descend roots (h :: hs) none =
      fieldScan n descend roots ({ h with mag := 1 } :: hs) (some (List.replicate n [h.theta, h.phi]).flatten) ∧
    fieldScan n descend roots [] none = .error .indexError := ⟨rfl, rfl⟩

end scan

/-- A scan of two fields of 1000 and 2000 A/m. -/
example : ∃ res H, fieldScan (T := ℝ) 1 (fun _ p => p) (fun _ _ => []) [⟨0, 0, 1000⟩, ⟨0, 0, 2000⟩] none = .ok (res, H) ∧
    H.map VectorObj.mag ≠ [1000, 2000] := by
  obtain ⟨res, h, -⟩ := C84_refuted (T := ℝ) 1 (fun _ p => p) (fun _ _ => []) ⟨0, 0, 1000⟩ [⟨0, 0, 2000⟩]
  exact ⟨res, _, h, by simp⟩

/-! ## Linear response -/

/-- The Jacobian of the excited right-hand sides. -/
noncomputable def excitedJ (s : Solver ℝ) (H : CVec ℝ) (ls : List (Layer ℝ × Dyn ℝ)) (e : Excite) (v : ℝ) (x : Coord → ℝ) :
    Matrix (Fin (2 * s.layers.length)) (Fin (2 * s.layers.length)) ℝ :=
  Matrix.of fun a b => pd ((rhsList s H (exciteValues e v).1 (exciteValues e v).2 ls).getD a fun _ => 0)
    ((symbols s.layers).getD b (.theta 0)) x

/-- C85, what is computed: the amplitudes of the linear system with every excitation factor divided by 1 + α² of its layer and the
excitation of amplitude 1, whatever the value given; rotated by the phase. Other layers than dynamic ones are refused; with
`cache_var = "f"` the call fails. -/
theorem C85_actual (s : Solver ℝ) (H : CVec ℝ) (f : ℝ) (e : Excite) (v : ℝ) (x : Coord → ℝ) (phase : ℝ) (cacheH : Bool) :
    ((∃ l ∈ s.layers, l.dyn = none) → s.spinDiode H f e v x phase cacheH = .error .valueError) ∧
    ((∀ l ∈ s.layers, l.dyn ≠ none) → cacheH = false → s.spinDiode H f e v x phase cacheH = .error .typeError) ∧
    ∀ r, s.spinDiode H f e v x phase cacheH = .ok r →
      let ls := s.layers.filterMap fun l => l.dyn.map fun d => (l, d)
      ∃ δ : Fin (2 * s.layers.length) → ℂ, r = List.ofFn (fun a => (δ a * Complex.exp (Complex.I * phase)).re) ∧
        Spec.Responds (excitedJ s H ls e v x)
          (fun a => s.responseV H ls e v x a / (1 + (ls.map (·.2.alpha)).getD (a / 2) 0 ^ 2)) 1 (2 * Real.pi * f) δ := by
  refine ⟨fun ⟨l, hl, hn⟩ => ?_, fun h hc => ?_, fun r hr => ?_⟩
  · unfold Solver.spinDiode
    rw [if_pos (List.any_eq_true.mpr ⟨l, hl, by simp [hn]⟩)]
  · unfold Solver.spinDiode
    rw [if_neg (by
      rw [List.any_eq_true]
      rintro ⟨l, hl, hn⟩
      exact h l hl (by simpa using hn)), hc]
    rfl
  · intro ls
    unfold Solver.spinDiode at hr
    split_ifs at hr with h1 h2
    dsimp only at hr
    split_ifs at hr with h3
    set A : Matrix (Fin (2 * s.layers.length)) (Fin (2 * s.layers.length)) ℂ := Matrix.of fun a b => s.responseA H ls e v f x a b with hA
    set V : Fin (2 * s.layers.length) → ℂ := fun a => s.responseV H ls e v x a with hV
    refine ⟨A⁻¹ *ᵥ V, by injection hr with hr; exact hr.symm, fun a => ?_⟩
    set δ := A⁻¹ *ᵥ V with hδ
    have hAV : A *ᵥ δ = V := by
      rw [hδ, Matrix.mulVec_mulVec, Matrix.mul_nonsing_inv _ (isUnit_iff_ne_zero.mpr h3), Matrix.one_mulVec]
    have h := congrFun hAV a
    set F : ℝ := 1 + (ls.map (·.2.alpha)).getD (a / 2) 0 ^ 2 with hF
    have hF0 : F ≠ 0 := by positivity
    have hrow : (A *ᵥ δ) a = F * (Complex.I * (2 * Real.pi * f) * δ a - ∑ b, (excitedJ s H ls e v x a b : ℂ) * δ b) := by
      have : ∀ b, A a b = F * ((if a = b then Complex.I * (2 * Real.pi * f) else 0) - (excitedJ s H ls e v x a b : ℂ)) := by
        intro b
        simp only [hA, Matrix.of_apply, Solver.responseA, excitedJ]
        have hab : ((a : Nat) = b) ↔ a = b := Fin.ext_iff.symm
        simp only [hab, ← hF]
        split_ifs <;> push_cast <;> ring
      simp only [Matrix.mulVec, dotProduct, this]
      rw [mul_sub, Finset.mul_sum]
      simp only [mul_sub, sub_mul, Finset.sum_sub_distrib]
      congr 1
      · simp [mul_assoc]
      · refine Finset.sum_congr rfl fun b _ => by ring
    rw [hrow] at h
    have hV' : V a = F * ((s.responseV H ls e v x a / F : ℝ) : ℂ) := by
      simp only [hV]
      rw [← Complex.ofReal_mul, mul_div_cancel₀ _ hF0]
    rw [hV'] at h
    have hFc : (F : ℂ) ≠ 0 := by exact_mod_cast hF0
    have := mul_left_cancel₀ hFc h
    change Complex.I * ((2 * Real.pi * f : ℝ) : ℂ) * δ a = _ + ((1 : ℝ) : ℂ) * ((s.responseV H ls e v x a / F : ℝ) : ℂ)
    rw [← this, Complex.ofReal_one]
    push_cast
    ring

/-- A layer without any energy, at any damping. -/
noncomputable def bare (α : ℝ) : Solver ℝ :=
  ⟨[⟨0, 1, ⟨0, 0, 0⟩, 0, 1, ⟨0, 0, 0⟩, ⟨0, 0, 0⟩, some ⟨α, 0, 0⟩⟩], [], [], none, [], none⟩


private theorem bare_energy (α : ℝ) (x : Coord → ℝ) : (bare α).energy ⟨0, 0, 0⟩ x = 0 := by
  rw [energy_sum (bare α) ⟨rfl, rfl, rfl⟩]
  simp [bare, layerAt_eq, Layer.noInteraction, CVec.dot]

private theorem bare_rhs (α Hoe V : ℝ) (x : Coord → ℝ) (l : Layer ℝ) (hl : (bare α).layers = [l]) (d : Dyn ℝ) (hd : l.dyn = some d) :
    l.rhs d ((bare α).perThickness ⟨0, 0, 0⟩ l) Hoe V x =
      (1.76e11 / (1 + α ^ 2) * Hoe, 1.76e11 / (1 + α ^ 2) * (α * Hoe / (Real.sin (x (.theta 0)) + 1e-15))) := by
  simp only [bare, List.cons.injEq, and_true] at hl
  subst hl
  simp only [Option.some.injEq] at hd
  subst hd
  have hE : (EPS : ℝ) = 1e-15 := by norm_num [EPS]
  have hg : (gammaRad : ℝ) = 1.76e11 := by norm_num [gammaRad]
  have h0 : ∀ l c, pd ((bare α).perThickness ⟨0, 0, 0⟩ l) c x = 0 := fun l c => by
    unfold pd Solver.perThickness
    simp [bare_energy]
  unfold Layer.rhs Layer.torque
  simp only [h0, hE, hg]
  generalize Real.sin (x (.theta 0)) + 1e-15 = S
  ext
  · simp
  · simp only []
    ring

/-- C85 refuted: the response is not that to an excitation of the given value. For a layer without energy, of damping `α`, excited by a
field of amplitude `v` at the frequency `f`, the θ amplitude (a quarter period later) is γ v / ((1+α²) 2π f); what is returned is
γ / ((1+α²)² 2π f) for every `v`. -/
theorem C85_refuted (α v f : ℝ) (hf : 0 < f) (x : Coord → ℝ) (hθ : x (.theta 0) = Real.pi / 2) :
    let ls := (bare α).layers.filterMap fun l => l.dyn.map fun d => (l, d)
    (∃ r, (bare α).spinDiode ⟨0, 0, 0⟩ f .hoe v x (Real.pi / 2) true = .ok r ∧
      r[0]? = some (1.76e11 / ((1 + α ^ 2) ^ 2 * (2 * Real.pi * f)))) ∧
    ∀ δ, Spec.Responds (excitedJ (bare α) ⟨0, 0, 0⟩ ls .hoe v x) (fun a => (bare α).responseV ⟨0, 0, 0⟩ ls .hoe v x a) v
        (2 * Real.pi * f) δ →
      (δ ⟨0, by simp [bare]⟩ * Complex.exp (Complex.I * (Real.pi / 2 : ℝ))).re = 1.76e11 * v / ((1 + α ^ 2) * (2 * Real.pi * f)) := by
  intro ls
  have hls : ls = [(⟨0, 1, ⟨0, 0, 0⟩, 0, 1, ⟨0, 0, 0⟩, ⟨0, 0, 0⟩, some ⟨α, 0, 0⟩⟩, ⟨α, 0, 0⟩)] := rfl
  have hrl : ∀ Hoe V, rhsList (bare α) ⟨0, 0, 0⟩ Hoe V ls =
      [fun _ => 1.76e11 / (1 + α ^ 2) * Hoe, fun x => 1.76e11 / (1 + α ^ 2) * (α * Hoe / (Real.sin (x (.theta 0)) + 1e-15))] := by
    intro Hoe V
    rw [hls]
    simp only [rhsList, List.flatMap_cons, List.flatMap_nil, List.append_nil]
    congr 1
    · funext x; rw [bare_rhs α Hoe V x _ rfl _ rfl]
    · congr 1; funext x; rw [bare_rhs α Hoe V x _ rfl _ rfl]
  have hJ : excitedJ (bare α) ⟨0, 0, 0⟩ ls .hoe v x = 0 := by
    ext a b
    have ha : (a : Nat) < 2 := by have := a.2; simpa [bare] using this
    have hb : (b : Nat) < 2 := by have := b.2; simpa [bare] using this
    simp only [excitedJ, Matrix.of_apply, hrl, Matrix.zero_apply]
    interval_cases (a : Nat) <;> interval_cases (b : Nat) <;> simp [symbols, bare, pd]
    have h1 : HasDerivAt (fun t => α * (exciteValues Excite.hoe v).1 / (Real.sin t + 1e-15)) 0 (Real.pi / 2) := by
      have hs : HasDerivAt (fun t => Real.sin t + (1e-15 : ℝ)) (Real.cos (Real.pi / 2)) (Real.pi / 2) :=
        (Real.hasDerivAt_sin _).add_const _
      have := (hasDerivAt_const (Real.pi / 2) (α * (exciteValues Excite.hoe v).1)).div hs (by norm_num)
      exact this.congr_deriv (by simp)
    right
    rw [hθ, show ((10 : ℝ) ^ 15)⁻¹ = 1e-15 by norm_num]
    exact h1.deriv
  have hV0 : (bare α).responseV ⟨0, 0, 0⟩ ls .hoe v x 0 = 1.76e11 / (1 + α ^ 2) := by
    unfold Solver.responseV
    simp only [hrl]
    simp [exciteValues]
  have hq : Complex.exp (Complex.I * (Real.pi / 2 : ℝ)) = Complex.I := by
    rw [mul_comm]; push_cast; exact Complex.exp_pi_div_two_mul_I
  have ha0 : (1 + α ^ 2) ≠ 0 := by positivity
  have hw : (2 * Real.pi * f) ≠ 0 := by have := Real.pi_pos; positivity
  have key : ∀ (δ : ℂ) (g : ℝ), Complex.I * ((2 * Real.pi * f : ℝ) : ℂ) * δ = g →
      (δ * Complex.exp (Complex.I * (Real.pi / 2 : ℝ))).re = g / (2 * Real.pi * f) := by
    intro δ g h
    rw [hq, mul_comm]
    have : Complex.I * δ = ((g / (2 * Real.pi * f) : ℝ) : ℂ) := by
      have hwc : ((2 * Real.pi * f : ℝ) : ℂ) ≠ 0 := by exact_mod_cast hw
      rw [Complex.ofReal_div, eq_div_iff hwc, ← h]
      ring
    rw [this, Complex.ofReal_re]
  constructor
  · have hdet : Matrix.det (Matrix.of fun a b : Fin (2 * (bare α).layers.length) => (bare α).responseA ⟨0, 0, 0⟩ ls .hoe v f x a b) ≠ 0 := by
      have hA : (Matrix.of fun a b : Fin (2 * (bare α).layers.length) => (bare α).responseA ⟨0, 0, 0⟩ ls .hoe v f x a b) =
          Matrix.diagonal fun _ => ((((1 + α ^ 2) * (2 * Real.pi * f) : ℝ) : ℂ) * Complex.I) := by
        ext a b
        have := congrFun (congrFun hJ a) b
        simp only [excitedJ, Matrix.of_apply, Matrix.zero_apply] at this
        have ha : (a : Nat) < 2 := by have := a.2; simpa [bare] using this
        have hal : (ls.map (·.2.alpha)).getD (a / 2) 0 = α := by
          rw [hls, show (a : Nat) / 2 = 0 by omega]; rfl
        simp only [Matrix.of_apply, Solver.responseA, this, hal, Matrix.diagonal_apply]
        have hab : ((a : Nat) = b) ↔ a = b := Fin.ext_iff.symm
        simp only [hab]
        split_ifs <;> simp
      rw [hA, Matrix.det_diagonal]
      refine Finset.prod_ne_zero_iff.mpr fun _ _ => mul_ne_zero ?_ Complex.I_ne_zero
      exact_mod_cast mul_ne_zero ha0 hw
    have hok : ∃ r, (bare α).spinDiode ⟨0, 0, 0⟩ f .hoe v x (Real.pi / 2) true = .ok r := by
      unfold Solver.spinDiode
      rw [if_neg (by simp [bare]), if_neg (by simp)]
      dsimp only
      rw [if_neg hdet]
      exact ⟨_, rfl⟩
    obtain ⟨r, hr⟩ := hok
    refine ⟨r, hr, ?_⟩
    obtain ⟨δ, h1, h2⟩ := (C85_actual (bare α) ⟨0, 0, 0⟩ f .hoe v x (Real.pi / 2) true).2.2 r hr
    have h2' : Spec.Responds (excitedJ (bare α) ⟨0, 0, 0⟩ ls .hoe v x)
      (fun a => (bare α).responseV ⟨0, 0, 0⟩ ls .hoe v x a / (1 + (ls.map (·.2.alpha)).getD (a / 2) 0 ^ 2)) 1 (2 * Real.pi * f) δ := h2
    have h := h2' ⟨0, by simp [bare]⟩
    dsimp only at h
    rw [hJ, hV0, Nat.zero_div] at h
    have hal : (ls.map (·.2.alpha)).getD 0 0 = α := rfl
    rw [hal] at h
    have := key _ (1.76e11 / (1 + α ^ 2) / (1 + α ^ 2)) (by simpa using h)
    rw [h1, List.getElem?_ofFn, dif_pos (by simp [bare])]
    refine congrArg some (this.trans ?_)
    field_simp
  · intro δ hδ
    have h := hδ ⟨0, by simp [bare]⟩
    rw [hJ] at h
    change _ = _ + _ * (((bare α).responseV ⟨0, 0, 0⟩ ls .hoe v x 0 : ℝ) : ℂ) at h
    rw [hV0] at h
    have := key _ (v * (1.76e11 / (1 + α ^ 2))) (by
      have e : ((v * (1.76e11 / (1 + α ^ 2)) : ℝ) : ℂ) = v * ((1.76e11 / (1 + α ^ 2) : ℝ) : ℂ) := Complex.ofReal_mul _ _
      rw [e]
      simpa using h)
    refine this.trans ?_
    field_simp

/-- The hypotheses of `C85_refuted` are met; for α = 0 and v = 2 the returned amplitude is half the true one. -/
example := C85_refuted 0 2 1e9 (by norm_num) (fun _ => Real.pi / 2) rfl

end SB
