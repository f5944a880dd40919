import Verif.Lemmas.Carry
import Mathlib.Analysis.Calculus.Deriv.Prod

/-! The schemes of the four runners are consistent and stable along a solution of the equations of motion. -/

set_option linter.unusedSectionVars false
set_option linter.unusedSimpArgs false
set_option maxSynthPendingDepth 4

namespace Order
open Spec Junction

variable {n : Nat}

/-! ### A solution as a curve in the joint space -/

noncomputable def joint (n : Nat) (m : Nat → ℝ → CVec ℝ) (t : ℝ) : X n := (t, fun i => toV (m i.1 t))

theorem low_joint (m : Nat → ℝ → CVec ℝ) (t : ℝ) (i : Fin n) : low (joint n m t).2 i = lower m i.1 t := by
  unfold low lower
  by_cases h : 0 < i.1
  · rw [dif_pos h, if_neg (by omega)]; rfl
  · rw [dif_neg h, if_pos (by omega)]

theorem up_joint (m : Nat → ℝ → CVec ℝ) (t : ℝ) (i : Fin n) : up (joint n m t).2 i = upper n m i.1 t := by
  unfold up upper
  by_cases h : i.1 + 1 < n
  · rw [dif_pos h, if_pos h]; rfl
  · rw [dif_neg h, if_neg h]

theorem slope_toV {c : ℝ → CVec ℝ} {v : CVec ℝ} {t : ℝ} (h : Slope c v t) : HasDerivAt (fun s => toV (c s)) (toV v) t := by
  have hw : HasFDerivWithinAt (fun s => toV (c s)) (ContinuousLinearMap.toSpanSingleton ℝ (toV v)) Set.univ t := by
    rw [hasFDerivWithinAt_euclidean]
    intro i
    obtain ⟨h1, h2, h3⟩ := h
    fin_cases i
    · exact (h1.hasFDerivAt.congr_fderiv (by ext; simp)).hasFDerivWithinAt
    · exact (h2.hasFDerivAt.congr_fderiv (by ext; simp)).hasFDerivWithinAt
    · exact (h3.hasFDerivAt.congr_fderiv (by ext; simp)).hasFDerivWithinAt
  rw [hasFDerivWithinAt_univ] at hw
  exact hw

theorem joint_deriv {ls : List (Layer ℝ)} {m : Nat → ℝ → CVec ℝ} {I : Set ℝ} (h : Motion ls m I) (t : ℝ) (ht : t ∈ I) :
    HasDerivAt (joint ls.length m) (rhs (fun i => ls[i]) (joint ls.length m t)) t := by
  refine HasDerivAt.prodMk (hasDerivAt_id t) (hasDerivAt_pi.2 fun i => ?_)
  have := h i.1 ls[i] (List.getElem?_eq_getElem i.2) t ht
  have h2 := slope_toV this
  rw [← low_joint, ← up_joint] at h2
  exact h2

/-! ### Consistency -/

section
variable {ι : Type*} {x : ι → X n} {L : Fin n → Layer ℝ}

theorem SL.sum {E G : Type*} [NormedAddCommGroup E] [NormedSpace ℝ E] [NormedAddCommGroup G] [NormedSpace ℝ G] {x : ι → E}
    {S : Fin n → E → ℝ → G} (h : ∀ i, SL x (S i)) (J : Finset (Fin n)) : SL x (fun z s => ∑ i ∈ J, S i z s) := by
  induction J using Finset.induction_on with
  | empty => simpa using SL.const x (0 : G)
  | insert a J ha ih =>
    simp only [Finset.sum_insert ha]
    exact (h a).add ih

theorem UO.sum {E : Type*} [NormedAddCommGroup E] [NormedSpace ℝ E] {k : ℕ} {f : Fin n → ι → ℝ → E} (h : ∀ i, UO k (f i))
    (J : Finset (Fin n)) : UO k (fun a s => ∑ i ∈ J, f i a s) := by
  induction J using Finset.induction_on with
  | empty => simpa using UO.zero (ι := ι) (E := E) k
  | insert a J ha ih =>
    simp only [Finset.sum_insert ha]
    exact (h a).add ih

theorem UO.map {E G : Type*} [NormedAddCommGroup E] [NormedSpace ℝ E] [NormedAddCommGroup G] [NormedSpace ℝ G] {k : ℕ}
    {f : ι → ℝ → E} (h : UO k f) (P : E →L[ℝ] G) : UO k (fun a s => P (f a s)) := by
  obtain ⟨C, r, hr, h⟩ := h
  refine ⟨‖P‖ * C, r, hr, fun i s hs => ?_⟩
  rw [mul_assoc]
  exact (P.le_opNorm _).trans (mul_le_mul_of_nonneg_left (h i s hs) (norm_nonneg P))

/-- the part belonging to layer `i` -/
noncomputable def part (i : Fin n) : X n →L[ℝ] X n :=
  ContinuousLinearMap.inr ℝ ℝ (Fin n → V) ∘L (ContinuousLinearMap.single ℝ (fun _ : Fin n => V) i ∘L
    ContinuousLinearMap.proj (R := ℝ) (φ := fun _ : Fin n => V) i) ∘L ContinuousLinearMap.snd ℝ ℝ (Fin n → V)

theorem part_eq (i : Fin n) (z : X n) : part i z = (0, Pi.single i (z.2 i)) := rfl

theorem parts (a : ℝ) (v : Fin n → X n) : ((a, fun i => (v i).2 i) : X n) = (a, 0) + ∑ i, part i (v i) := by
  refine Prod.ext ?_ ?_
  · simp [part_eq, Prod.fst_sum]
  · funext k
    simp [part_eq, Prod.snd_sum, Finset.sum_apply, Pi.single_apply]

theorem frozen_sl (hF : Reg (rhs L) x) : SL x (frozenSlope L) := by
  have e : frozenSlope L = fun z h => ((1 : ℝ), (0 : Fin n → V)) + ∑ i, part i (rkSlope (rhs L) (keep i) z h) := by
    funext z h; exact parts 1 _
  rw [e]
  exact (SL.const x _).add (SL.sum (fun i => (rkSlope_sl hF (keep i)).map (part i)) _)

theorem frozen_near (hF : Reg (rhs L) x) : UO 1 (fun i h => frozenSlope L (x i) h - rhs L (x i)) := by
  refine (UO.sum (fun k => (rkSlope_near hF (keep k)).map (part k)) Finset.univ).congr' fun i h => ?_
  have e1 : frozenSlope L (x i) h = ((1 : ℝ), (0 : Fin n → V)) + ∑ k, part k (rkSlope (rhs L) (keep k) (x i) h) := parts 1 _
  have e2 : rhs L (x i) = ((1 : ℝ), (0 : Fin n → V)) + ∑ k, part k (rhs L (x i)) := parts 1 (fun _ => rhs L (x i))
  simp only [map_sub, Finset.sum_sub_distrib]
  rw [e1]
  conv_lhs => rw [e2]
  abel

theorem frozen_one (L : Fin 1 → Layer ℝ) : frozenSlope L = rkSlope (rhs L) (.id ℝ (X 1)) := by
  have h0 : ∀ i : Fin 1, keep i = ContinuousLinearMap.id ℝ (X 1) := by
    intro i
    refine ContinuousLinearMap.ext fun z => Prod.ext rfl (funext fun k => ?_)
    rw [Subsingleton.elim k i, keep_same]; rfl
  funext z h
  refine Prod.ext ?_ (funext fun i => ?_)
  · show (1 : ℝ) = (1 / 6 : ℝ) • ((1 : ℝ) + (2 : ℝ) • (1 : ℝ) + (2 : ℝ) • (1 : ℝ) + (1 : ℝ))
    norm_num
  · show (rkSlope (rhs L) (keep i) z h).2 i = _
    rw [h0]

/-- order of the scheme behind a runner -/
def order (r : Runner) : ℕ :=
  match r with
  | .heun => 2
  | .eulerHeun => 1
  | .single => 4
  | .multi => 1

theorem scheme_sl (r : Runner) (hF : Reg (rhs L) x) : SL x (schemeSlope r L) := by
  cases r with
  | heun => exact heunSlope_sl hF
  | eulerHeun => exact SL.base hF
  | single => exact frozen_sl hF
  | multi => exact frozen_sl hF

theorem scheme_local (r : Runner) (h1 : r = .single → n = 1) {y : ι → ℝ → X n} (hF : Reg (rhs L) x) (hy : Flow (rhs L) x y) :
    UO (order r + 1) (fun i h => y i h - (x i + h • schemeSlope r L (x i) h)) := by
  cases r with
  | heun => exact (heun_local hF hy).congr' fun i h => by rw [heun_eq]; rfl
  | eulerHeun => exact euler_local hF hy
  | single =>
    have := h1 rfl
    subst this
    refine (rk4_local hF hy).congr' fun i h => ?_
    rw [rk4_eq, ← frozen_one]; rfl
  | multi =>
    refine ((euler_local hF hy).sub (frozen_near hF).step).congr' fun i h => ?_
    show y i h - (x i + h • frozenSlope L (x i) h) = y i h - (x i + h • rhs L (x i)) - h • (frozenSlope L (x i) h - rhs L (x i))
    module

theorem scheme_time (r : Runner) (L : Fin n → Layer ℝ) (z : X n) (h : ℝ) : (schemeSlope r L z h).1 = 1 := by
  cases r with
  | heun =>
    show (1 / 2 : ℝ) • ((1 : ℝ) + 1) = 1
    norm_num
  | eulerHeun => rfl
  | single => rfl
  | multi => rfl

end

/-! ### The steps of the junction as the iteration of the scheme -/

noncomputable def iterate (r : Runner) (L : Fin n → Layer ℝ) (h : ℝ) (M : Fin n → V) : ℕ → X n
  | 0 => (0, M)
  | k + 1 => renormalise (iterate r L h M k + h • schemeSlope r L (iterate r L h M k) h)

theorem iterate_time (r : Runner) (L : Fin n → Layer ℝ) (h : ℝ) (M : Fin n → V) (k : ℕ) :
    (iterate r L h M k).1 = k * h := by
  induction k with
  | zero => simp [iterate]
  | succ k ih =>
    show (iterate r L h M k).1 + h * (schemeSlope r L (iterate r L h M k) h).1 = _
    rw [ih, scheme_time]; push_cast; ring

theorem evolve_iterate (r : Runner) (L : Fin n → Layer ℝ) (hq : ∀ i, Quiet (L i)) (h1 : r = .single → n = 1) (h : ℝ)
    (M : Fin n → V) (k i : ℕ) (j : Junction ℝ) (hj : Carries L (iterate r L h M i).2 j.layers) :
    ∃ j', evolve r h i k j = .ok () j' ∧ Carries L (iterate r L h M (i + k)).2 j'.layers := by
  induction k generalizing i j with
  | zero => exact ⟨j, rfl, hj⟩
  | succ k ih =>
    obtain ⟨j1, e1, c1⟩ := hj.step hq r h1 (Scalar.lit (i : ℚ) * h) h
    have et : (Scalar.lit (i : ℚ) * h : ℝ) = (iterate r L h M i).1 := by rw [iterate_time]; simp
    rw [et] at c1 e1
    obtain ⟨j2, e2, c2⟩ := ih (i + 1) j1 c1
    refine ⟨j2, ?_, ?_⟩
    · unfold evolve
      rw [et, e1]
      exact e2
    · rw [show i + (k + 1) = i + 1 + k by omega]; exact c2

/-! ### Convergence -/

theorem carries_self (ls : List (Layer ℝ)) : Carries (fun i : Fin ls.length => ls[i]) (fun i => toV ls[i].mag) ls :=
  ⟨rfl, fun i => ⟨ls[i].cache, by rw [List.getElem?_eq_getElem i.2]; rfl⟩⟩

end Order
