import Verif.Lemmas.PySb
import Mathlib.Analysis.Calculus.FDeriv.Symmetric
import Mathlib.Analysis.Calculus.Deriv.Prod
import Mathlib.Analysis.SpecialFunctions.Trigonometric.Deriv
import Mathlib.Analysis.Calculus.ContDiff.Basic

/-!
# The energies of `general_sb.py` are smooth in the angles
-/

set_option linter.unusedSectionVars false

namespace SB
open Scalar Matrix

/-- Mixed derivatives of a twice continuously differentiable function of two variables agree. -/
theorem mixed {F : ℝ → ℝ → ℝ} (hF : ContDiff ℝ 2 (fun p : ℝ × ℝ => F p.1 p.2)) (a b : ℝ) :
    deriv (fun t => deriv (fun s => F s t) a) b = deriv (fun s => deriv (fun t => F s t) b) a := by
  set G := fun p : ℝ × ℝ => F p.1 p.2 with hG
  have hd : Differentiable ℝ G := hF.differentiable (by norm_num)
  have hd2 : Differentiable ℝ (fderiv ℝ G) := (hF.fderiv_right (m := 1) (by norm_num)).differentiable (by norm_num)
  have e1 : ∀ s t : ℝ, HasDerivAt (fun s => ((s, t) : ℝ × ℝ)) ((1, 0) : ℝ × ℝ) s := fun s t =>
    (hasDerivAt_id s).prodMk (hasDerivAt_const s t)
  have e2 : ∀ s t : ℝ, HasDerivAt (fun t => ((s, t) : ℝ × ℝ)) ((0, 1) : ℝ × ℝ) t := fun s t =>
    (hasDerivAt_const t s).prodMk (hasDerivAt_id t)
  have d1 : ∀ t, deriv (fun s => F s t) a = fderiv ℝ G (a, t) (1, 0) := fun t =>
    (HasFDerivAt.comp_hasDerivAt (l := G) a (hd (a, t)).hasFDerivAt (e1 a t)).deriv
  have d2 : ∀ s, deriv (fun t => F s t) b = fderiv ℝ G (s, b) (0, 1) := fun s =>
    (HasFDerivAt.comp_hasDerivAt (l := G) b (hd (s, b)).hasFDerivAt (e2 s b)).deriv
  have h1 : HasDerivAt (fun t => fderiv ℝ G (a, t) (1, 0)) (fderiv ℝ (fderiv ℝ G) (a, b) (0, 1) (1, 0)) b := by
    have := (hd2 (a, b)).hasFDerivAt.comp_hasDerivAt b (e2 a b)
    simpa using this.clm_apply (hasDerivAt_const b ((1, 0) : ℝ × ℝ))
  have h2 : HasDerivAt (fun s => fderiv ℝ G (s, b) (0, 1)) (fderiv ℝ (fderiv ℝ G) (a, b) (1, 0) (0, 1)) a := by
    have := (hd2 (a, b)).hasFDerivAt.comp_hasDerivAt a (e1 a b)
    simpa using this.clm_apply (hasDerivAt_const a ((0, 1) : ℝ × ℝ))
  simp only [d1, d2]
  rw [h1.deriv, h2.deriv]
  have hs := (hF.contDiffAt (x := (a, b))).isSymmSndFDerivAt (by simp)
  exact hs.eq _ _

/-- Twice continuously differentiable along every twice continuously differentiable family of positions with two parameters. -/
def Smooth2 (E : (Coord → ℝ) → ℝ) : Prop :=
  ∀ u : ℝ × ℝ → Coord → ℝ, (∀ c, ContDiff ℝ 2 fun p => u p c) → ContDiff ℝ 2 fun p => E (u p)

theorem pd_comm {E : (Coord → ℝ) → ℝ} (hE : Smooth2 E) (c c' : Coord) (x : Coord → ℝ) :
    pd (pd E c) c' x = pd (pd E c') c x := by
  by_cases h : c = c'
  · rw [h]
  have hu : ContDiff ℝ 2 (fun p : ℝ × ℝ => E (Function.update (Function.update x c p.1) c' p.2)) := by
    apply hE
    intro d
    simp only [Function.update_apply]
    split_ifs
    · exact contDiff_snd
    · exact contDiff_fst
    · exact contDiff_const
  have := mixed (F := fun s t => E (Function.update (Function.update x c s) c' t)) hu (x c) (x c')
  unfold pd
  simp only [Function.update_of_ne h, Function.update_of_ne (Ne.symm h)]
  rw [← this]
  simp only [Function.update_comm h]

theorem noInteraction_smooth (l : Layer ℝ) (H : CVec ℝ) : Smooth2 (l.noInteraction H) := by
  intro u hu
  have h1 := hu (.theta l.id)
  have h2 := hu (.phi l.id)
  unfold Layer.noInteraction Layer.m
  simp only [CVec.dot, powi_real, sin_real, cos_real]
  fun_prop

theorem gapE_smooth (l1 l2 : Layer ℝ) (J1 J2 : ℝ) (D : CVec ℝ) (A : Option (Rows ℝ)) : Smooth2 (gapE l1 l2 J1 J2 D A) := by
  intro u hu
  have h1 := hu (.theta l1.id)
  have h2 := hu (.phi l1.id)
  have h3 := hu (.theta l2.id)
  have h4 := hu (.phi l2.id)
  unfold gapE Spec.coupling
  cases A with
  | none =>
    simp only [vec_m, Spec.unit, dotProduct, Fin.sum_univ_three, cross_apply]
    simp
    fun_prop
  | some A =>
    simp only [vec_m, Spec.unit, dotProduct, Fin.sum_univ_three, cross_apply, Spec.dipoleCoupling, Matrix.mulVec]
    simp
    fun_prop

theorem energy_smooth (s : Solver ℝ) (hs : s.Sized) (H : CVec ℝ) : Smooth2 (s.energy H) := by
  intro u hu
  simp only [energy_sum s hs]
  refine ContDiff.add (ContDiff.sum fun k _ => ?_) (ContDiff.sum fun k _ => ?_)
  · exact (noInteraction_smooth _ H u hu).mul contDiff_const
  · exact gapE_smooth _ _ _ _ _ _ u hu

/-- First derivatives of a smooth energy are differentiable along every coordinate. -/
theorem pd_diff {E : (Coord → ℝ) → ℝ} (hE : Smooth2 E) (c c' : Coord) (x : Coord → ℝ) :
    DifferentiableAt ℝ (fun t => pd E c (Function.update x c' t)) (x c') := by
  by_cases h : c = c'
  · subst h
    have hu : ContDiff ℝ 2 (fun p : ℝ × ℝ => E (Function.update x c p.1)) := by
      apply hE
      intro d
      simp only [Function.update_apply]
      split_ifs
      · exact contDiff_fst
      · exact contDiff_const
    have h1 : ContDiff ℝ 2 (fun t : ℝ => E (Function.update x c t)) :=
      hu.comp (contDiff_id.prodMk (contDiff_const (c := (0 : ℝ))))
    have h2 : Differentiable ℝ (deriv fun t : ℝ => E (Function.update x c t)) :=
      ((contDiff_succ_iff_deriv (n := 1)).mp h1).2.2.differentiable (by norm_num)
    have e : (fun t => pd E c (Function.update x c t)) = deriv fun t : ℝ => E (Function.update x c t) := by
      funext t
      simp [pd]
    rw [e]
    exact h2 _
  · have hu : ContDiff ℝ 2 (fun p : ℝ × ℝ => E (Function.update (Function.update x c p.1) c' p.2)) := by
      apply hE
      intro d
      simp only [Function.update_apply]
      split_ifs
      · exact contDiff_snd
      · exact contDiff_fst
      · exact contDiff_const
    set G := fun p : ℝ × ℝ => E (Function.update (Function.update x c p.1) c' p.2) with hG
    have hd : Differentiable ℝ G := hu.differentiable (by norm_num)
    have hd2 : Differentiable ℝ (fderiv ℝ G) := (hu.fderiv_right (m := 1) (by norm_num)).differentiable (by norm_num)
    have e : (fun t => pd E c (Function.update x c' t)) = fun t => fderiv ℝ G (x c, t) (1, 0) := by
      funext t
      unfold pd
      rw [Function.update_of_ne h]
      have := (HasFDerivAt.comp_hasDerivAt (l := G) (x c) (hd (x c, t)).hasFDerivAt
        ((hasDerivAt_id (x c)).prodMk (hasDerivAt_const (x c) t))).deriv
      simp only [Function.update_comm (Ne.symm h)] at *
      exact this
    rw [e]
    have h1 : Differentiable ℝ (fun t : ℝ => fderiv ℝ G (x c, t)) :=
      hd2.comp ((differentiable_const (x c)).prodMk differentiable_id)
    exact (h1.clm_apply (differentiable_const _)) _

end SB
