import Verif.Lemmas.Conv
import Verif.Spec.MotionLlgb

/-! The solver steps of an LLGB junction as one-step schemes for the joint equation of motion. -/

set_option linter.unusedSectionVars false
set_option linter.unusedSimpArgs false
set_option maxSynthPendingDepth 4

namespace Order.Llgb
open Spec LLGBJunction LLGBLayer

variable {n : Nat}

/-- right-hand side of the joint equation -/
noncomputable def rhs (L : Fin n → LLGBLayer ℝ) (z : X n) : X n := (1, fun i => toV (llbRate (L i) z.1 (ofV (z.2 i))))

/-! ### Smoothness -/

section
variable {E : Type*} [NormedAddCommGroup E] [NormedSpace ℝ E] {f g : E → CVec ℝ} {c : E → ℝ} {z : E}

theorem cd_add (hf : CD f z) (hg : CD g z) : CD (fun w => f w + g w) z :=
  ⟨hf.1.add hg.1, hf.2.1.add hg.2.1, hf.2.2.add hg.2.2⟩
theorem cd_mull (hc : ContDiffAt ℝ 4 c z) (hf : CD f z) : CD (fun w => c w * f w) z :=
  ⟨hc.mul hf.1, hc.mul hf.2.1, hc.mul hf.2.2⟩

theorem cd_rate {l : LLGBLayer ℝ} {τ : E → ℝ} {m : E → CVec ℝ} (hl : LlgbSmooth l (τ z)) (hτ : ContDiffAt ℝ 4 τ z)
    (hm : CD m z) (h0 : (m z).normSq ≠ 0) : CD (fun w => llbRate l (τ w) (m w)) z := by
  have hT : ContDiffAt ℝ 4 (fun w => l.temperatureDriver.value (τ w)) z := hl.temperature.comp z hτ
  have hK : ContDiffAt ℝ 4 (fun w => l.anisotropyDriver.value (τ w)) z := hl.anisotropy.comp z hτ
  have hE : CD (fun w => l.externalFieldDriver.value (τ w)) z := CD.comp_time hl.external hτ
  have hn : ContDiffAt ℝ 4 (fun w => (m w).normSq) z := (CD.dot hm hm).congr_of_eventuallyEq
    (Filter.Eventually.of_forall fun w => CVec.normSq_eq_dot _)
  have hpar : ContDiffAt ℝ 4 (fun w => alphaParallel l.damping (l.temperatureDriver.value (τ w)) l.Tc) z :=
    (contDiffAt_const.mul hT).div_const _
  have ev : (∀ᶠ w in nhds z, l.temperatureDriver.value (τ w) < l.Tc) ∨ ∀ᶠ w in nhds z, l.Tc < l.temperatureDriver.value (τ w) := by
    rcases lt_or_gt_of_ne hl.curie with h | h
    · exact .inl (hT.continuousAt.eventually_lt continuousAt_const h)
    · exact .inr (continuousAt_const.eventually_lt hT.continuousAt h)
  have hperp : ContDiffAt ℝ 4 (fun w => alphaPerpendicular l.damping (l.temperatureDriver.value (τ w)) l.Tc) z := by
    rcases ev with ev | ev
    · refine ContDiffAt.congr_of_eventuallyEq (f := fun w => l.damping * (1 - l.temperatureDriver.value (τ w) / (3 * l.Tc)))
        (contDiffAt_const.mul (contDiffAt_const.sub (hT.div_const _))) (ev.mono fun w hw => ?_)
      simp only [alphaPerpendicular, if_pos hw]
    · refine ContDiffAt.congr_of_eventuallyEq (f := fun w => 2 * l.damping * l.temperatureDriver.value (τ w) / (3 * l.Tc))
        ((contDiffAt_const.mul hT).div_const _) (ev.mono fun w hw => ?_)
      simp only [alphaPerpendicular, if_neg (not_lt.2 hw.le)]
  have hlong : CD (fun w => longitudinalField l.susceptibility l.me (l.temperatureDriver.value (τ w)) l.Tc (m w)) z := by
    rcases ev with ev | ev
    · have h := cd_mull ((contDiffAt_const.sub (hn.div_const (l.me ^ 2))).div_const (2 * l.susceptibility)) hm (c := fun w =>
        (1 - (m w).normSq / l.me ^ 2) / (2 * l.susceptibility))
      refine ⟨h.1.congr_of_eventuallyEq (ev.mono fun w hw => ?_), h.2.1.congr_of_eventuallyEq (ev.mono fun w hw => ?_),
        h.2.2.congr_of_eventuallyEq (ev.mono fun w hw => ?_)⟩ <;> simp only [longitudinalField, if_pos hw.le]
    · have h := cd_mull (((contDiffAt_const.add ((contDiffAt_const.mul hn).div (contDiffAt_const.mul (hT.sub contDiffAt_const))
        (by have := ev.self_of_nhds; exact mul_ne_zero (by norm_num) (sub_pos.2 this).ne'))).neg).div_const l.susceptibility) hm
        (c := fun w => -(1 + 3 * l.Tc * (m w).normSq / (5 * (l.temperatureDriver.value (τ w) - l.Tc))) / l.susceptibility)
      refine ⟨h.1.congr_of_eventuallyEq (ev.mono fun w hw => ?_), h.2.1.congr_of_eventuallyEq (ev.mono fun w hw => ?_),
        h.2.2.congr_of_eventuallyEq (ev.mono fun w hw => ?_)⟩ <;> simp only [longitudinalField, if_neg (not_le.2 hw)]
  have hH := cd_add (cd_add (cd_mull (hK.mul (CD.dot (CD.const l.anis) hm)) (CD.const l.anis)) hE) hlong
  have hx := hm.cross hH
  exact cd_mull contDiffAt_const (((cd_mull ((hpar.mul (hm.dot hH)).div hn h0) hm).sub hx).sub
    (cd_mull (hperp.div hn h0) (hm.cross hx)))

end

theorem rhs_smooth (L : Fin n → LLGBLayer ℝ) (z : X n) (hl : ∀ i, LlgbSmooth (L i) z.1)
    (h0 : ∀ i, (ofV (z.2 i)).normSq ≠ 0) : ContDiffAt ℝ 4 (rhs L) z := by
  have hp : ∀ i : Fin n, CD (fun w : X n => ofV (w.2 i)) z := fun i => CD.ofV ((contDiffAt_pi.1 contDiffAt_snd) i)
  exact contDiffAt_const.prodMk (contDiffAt_pi.2 fun i => CD.toV (cd_rate (hl i) contDiffAt_fst (hp i) (h0 i)))

/-! ### The steps of the junction -/

/-- average slope of a step -/
noncomputable def slope (r : LLGBJunction.Runner) (L : Fin n → LLGBLayer ℝ) : X n → ℝ → X n :=
  match r with
  | .heun => heunSlope (rhs L)
  | .eulerHeun => slope1 (rhs L)

/-- order of the solver -/
def order (r : LLGBJunction.Runner) : ℕ :=
  match r with
  | .heun => 2
  | .eulerHeun => 1

section
variable {ι : Type*} {x : ι → X n} {L : Fin n → LLGBLayer ℝ}

theorem slope_sl (r : LLGBJunction.Runner) (hF : Reg (rhs L) x) : SL x (slope r L) := by
  cases r with
  | heun => exact heunSlope_sl hF
  | eulerHeun => exact SL.base hF

theorem slope_local (r : LLGBJunction.Runner) {y : ι → ℝ → X n} (hF : Reg (rhs L) x) (hy : Flow (rhs L) x y) :
    UO (order r + 1) (fun i h => y i h - (x i + h • slope r L (x i) h)) := by
  cases r with
  | heun => exact (heun_local hF hy).congr' fun i h => by rw [heun_eq]; rfl
  | eulerHeun => exact euler_local hF hy

theorem slope_time (r : LLGBJunction.Runner) (L : Fin n → LLGBLayer ℝ) (z : X n) (h : ℝ) : (slope r L z h).1 = 1 := by
  cases r with
  | heun =>
    show (1 / 2 : ℝ) • ((1 : ℝ) + 1) = 1
    norm_num
  | eulerHeun => rfl

end

/-- the layers of the junction are `L` up to what steps change, their magnetisations `M` -/
def Holds (L : Fin n → LLGBLayer ℝ) (M : Fin n → V) (ls : List (LLGBLayer ℝ)) : Prop :=
  ls.length = n ∧ ∀ i : Fin n, ∃ l, ls[i.1]? = some l ∧ LLGBLayer.Frame (L i) l ∧ l.mag = ofV (M i)

theorem step_mag (r : LLGBJunction.Runner) (L : Fin n → LLGBLayer ℝ) (z : X n) (dt : ℝ) (i : Fin n) (l : LLGBLayer ℝ)
    (hf : LLGBLayer.Frame (L i) l) (hm : l.mag = ofV (z.2 i)) :
    (stepLayer r z.1 dt l).mag = ofV ((z + dt • slope r L z dt).2 i) := by
  have e : ((⟨[l], [], 0, 0⟩ : LLGBJunction ℝ).runStep r z.1 dt).layers.map LLGBLayer.mag = [(stepLayer r z.1 dt l).mag] := by
    rw [runStep_eq]; rfl
  have hr : ∀ t m, llbRate l t m = llbRate (L i) t m := fun t m => rate_frame hf t m
  cases r with
  | heun =>
    rw [C77_heun] at e
    simp only [List.map_cons, List.map_nil, List.cons.injEq, and_true] at e
    rw [← e]
    simp only [hr, hm]
    have h1 : (slope .heun L z dt).2 i = (1 / 2 : ℝ) • (toV (llbRate (L i) z.1 (ofV (z.2 i))) +
        toV (llbRate (L i) (z.1 + 1 * dt * 1) (ofV (z.2 i + (1 * dt) • toV (llbRate (L i) z.1 (ofV (z.2 i))))))) := rfl
    have h2 : ofV (z.2 i + (1 * dt) • toV (llbRate (L i) z.1 (ofV (z.2 i)))) =
        ofV (z.2 i) + dt * llbRate (L i) z.1 (ofV (z.2 i)) := by
      ext <;> simp [mul_comm]
    rw [h2, one_mul, mul_one] at h1
    show _ = ofV (z.2 i + dt • (slope .heun L z dt).2 i)
    rw [h1]
    ext <;> simp <;> ring
  | eulerHeun =>
    rw [C77_eulerHeun] at e
    simp only [List.map_cons, List.map_nil, List.cons.injEq, and_true] at e
    rw [← e]
    simp only [hr, hm]
    show _ = ofV (z.2 i + dt • toV (llbRate (L i) z.1 (ofV (z.2 i))))
    ext <;> simp [mul_comm]

theorem Holds.step {L : Fin n → LLGBLayer ℝ} {z : X n} {ls : List (LLGBLayer ℝ)} (h : Holds L z.2 ls) (r : LLGBJunction.Runner)
    (dt : ℝ) : Holds L (z + dt • slope r L z dt).2 (ls.map (stepLayer r z.1 dt)) := by
  refine ⟨by rw [List.length_map]; exact h.1, fun i => ?_⟩
  obtain ⟨l, hl, hf, hm⟩ := h.2 i
  exact ⟨stepLayer r z.1 dt l, by simp [hl], hf.trans (frame_step l r _ _), step_mag r L z dt i l hf hm⟩

/-- the states of the scheme; the times of the code are one step ahead -/
noncomputable def iterate (r : LLGBJunction.Runner) (L : Fin n → LLGBLayer ℝ) (h t : ℝ) (M : Fin n → V) : ℕ → X n
  | 0 => (t, M)
  | k + 1 => iterate r L h t M k + h • slope r L (iterate r L h t M k) h

theorem iterate_time (r : LLGBJunction.Runner) (L : Fin n → LLGBLayer ℝ) (h t : ℝ) (M : Fin n → V) (k : ℕ) :
    (iterate r L h t M k).1 = t + k * h := by
  induction k with
  | zero => simp [iterate]
  | succ k ih =>
    show (iterate r L h t M k).1 + h * (slope r L (iterate r L h t M k) h).1 = _
    rw [ih, slope_time]; push_cast; ring

theorem evolve_iterate (r : LLGBJunction.Runner) (L : Fin n → LLGBLayer ℝ) (h t : ℝ) (M : Fin n → V) (k i : ℕ)
    (j : LLGBJunction ℝ) (hj : Holds L (iterate r L h (t + h) M i).2 j.layers) (ht : j.time = t + i * h) :
    Holds L (iterate r L h (t + h) M (i + k)).2 (evolve r h k j).layers := by
  induction k generalizing i j with
  | zero => exact hj
  | succ k ih =>
    have hs := hj.step r h
    rw [iterate_time] at hs
    have e : t + h + i * h = j.time + h := by rw [ht]; ring
    rw [e] at hs
    have := ih (i + 1) (tick r h j) hs (by show j.time + h = _; rw [ht]; push_cast; ring)
    rw [show i + (k + 1) = i + 1 + k by omega]
    exact this

theorem holds_self (ls : List (LLGBLayer ℝ)) : Holds (fun i : Fin ls.length => ls[i]) (fun i => toV ls[i].mag) ls :=
  ⟨rfl, fun i => ⟨ls[i], List.getElem?_eq_getElem i.2, ⟨_, _, _, _, _, _, _, rfl⟩, rfl⟩⟩

theorem joint_deriv {ls : List (LLGBLayer ℝ)} {m : Nat → ℝ → CVec ℝ} {I : Set ℝ} (h : LlgbMotion ls m I) (t : ℝ) (ht : t ∈ I) :
    HasDerivAt (joint ls.length m) (rhs (fun i => ls[i]) (joint ls.length m t)) t :=
  HasDerivAt.prodMk (hasDerivAt_id t) (hasDerivAt_pi.2 fun i => slope_toV (h i.1 ls[i] (List.getElem?_eq_getElem i.2) t ht))

end Order.Llgb
