import Verif.Model.PySb
import Verif.Spec.PySb
import Mathlib.Analysis.Calculus.Deriv.Add

/-!
# Lemmas on the Smit-Beljers model: the energy as a sum over layers and gaps
-/

set_option linter.unusedSectionVars false

namespace SB
open Scalar Matrix

/-- A vector as a function on three indices. -/
def vec (v : CVec ℝ) : Fin 3 → ℝ := ![v.x, v.y, v.z]
/-- A matrix of rows as a matrix. -/
def Rows.mat (A : Rows ℝ) : Matrix (Fin 3) (Fin 3) ℝ := Matrix.of ![vec A.r1, vec A.r2, vec A.r3]

/-- The layer used beyond the end of a list. -/
def dummy : Layer ℝ := ⟨0, 0, ⟨0, 0, 0⟩, 0, 0, ⟨0, 0, 0⟩, ⟨0, 0, 0⟩, none⟩

theorem layerAt_eq (s : Solver ℝ) (i : Nat) : s.layerAt i = s.layers.getD i dummy := by
  simp only [Solver.layerAt, dummy]

theorem vec_dot (a b : CVec ℝ) : a.dot b = vec a ⬝ᵥ vec b := by
  simp [CVec.dot, vec, dotProduct, Fin.sum_univ_three]

theorem vec_cross (a b : CVec ℝ) : vec (a.cross b) = vec a ⨯₃ vec b := by
  rw [cross_apply]; ext i; fin_cases i <;> simp [CVec.cross, vec]

theorem vec_mulVec (A : Rows ℝ) (v : CVec ℝ) : vec (A.mulVec v) = A.mat *ᵥ vec v := by
  ext i; fin_cases i <;> simp [Rows.mulVec, vec_dot, vec, Rows.mat, Matrix.mulVec, dotProduct]

theorem vec_m (l : Layer ℝ) (x : Coord → ℝ) : vec (l.m x) = Spec.unit (x (.theta l.id)) (x (.phi l.id)) := rfl

theorem density_eq (l : Layer ℝ) (H : CVec ℝ) (x : Coord → ℝ) :
    l.noInteraction H x = Spec.density mu0 l.Ms l.Ks l.Kv.mag l.Kv.phi (vec l.Ndemag) (vec H) (vec l.Hdmi)
      (Spec.unit (x (.theta l.id)) (x (.phi l.id))) := by
  rw [← vec_m]
  unfold Layer.noInteraction Spec.density
  simp only [powi_real, cos_real, sin_real, CVec.dot, vec, dotProduct, Fin.sum_univ_three, Pi.add_apply, Matrix.cons_val_zero,
    Matrix.cons_val_one, Matrix.cons_val, ofNat_real, ofSci_real_true, Nat.cast_zero]
  push_cast
  ring

/-- The coupling terms of one gap. -/
noncomputable def gapE (l1 l2 : Layer ℝ) (J1 J2 : ℝ) (D : CVec ℝ) (A : Option (Rows ℝ)) (x : Coord → ℝ) : ℝ :=
  Spec.coupling J1 J2 (vec D) (vec (l1.m x)) (vec (l2.m x)) +
    match A with
    | none => 0
    | some A => Spec.dipoleCoupling mu0 l1.Ms l2.Ms l1.thickness l2.thickness A.mat (vec (l1.m x)) (vec (l2.m x))

theorem exchange_eq (e : ℝ) (l1 l2 : Layer ℝ) (J1 J2 : ℝ) (D : CVec ℝ) (x : Coord → ℝ) :
    exchange e l1 l2 J1 J2 D x = e + Spec.coupling J1 J2 (vec D) (vec (l1.m x)) (vec (l2.m x)) := by
  simp only [exchange, Spec.coupling, vec_dot, vec_cross, powi_real]
  ring

theorem dipolar_eq (e : ℝ) (l1 l2 : Layer ℝ) (A : Rows ℝ) (x : Coord → ℝ) :
    dipolar e l1 l2 A x =
      e + Spec.dipoleCoupling mu0 l1.Ms l2.Ms l1.thickness l2.thickness A.mat (vec (l1.m x)) (vec (l2.m x)) := by
  simp only [dipolar, Spec.dipoleCoupling, vec_dot, vec_mulVec, ofSci_real_true]
  push_cast
  ring

/-- The dipole tensor of a gap, if there are any. -/
def dipAt (dip : Option (List (Rows ℝ))) (k : Nat) : Option (Rows ℝ) := dip.bind (·[k]?)

theorem couplings_eq (x : Coord → ℝ) (ls : List (Layer ℝ)) (J1 J2 : List ℝ) (D : List (CVec ℝ)) (dip : Option (List (Rows ℝ)))
    (e : ℝ) (h1 : ls.length = J1.length + 1) (h2 : ls.length = J2.length + 1) (h3 : ls.length = D.length + 1) :
    couplings x ls J1 J2 D dip e = e + ∑ k ∈ Finset.range (ls.length - 1),
      gapE (ls.getD k dummy) (ls.getD (k + 1) dummy) (J1.getD k 0) (J2.getD k 0) (D.getD k ⟨0, 0, 0⟩) (dipAt dip k) x := by
  induction ls generalizing J1 J2 D dip e with
  | nil => simp at h1
  | cons l1 ls ih =>
    cases ls with
    | nil =>
      rcases J1 with _ | ⟨j1, J1⟩ <;> simp [couplings] at *
    | cons l2 ls =>
      rcases J1 with _ | ⟨j1, J1⟩
      · simp at h1
      rcases J2 with _ | ⟨j2, J2⟩
      · simp at h2
      rcases D with _ | ⟨d, D⟩
      · simp at h3
      rw [couplings]
      rw [ih J1 J2 D (dip.map List.tail) _ (by simpa using h1) (by simpa using h2) (by simpa using h3)]
      have hlen : (l1 :: l2 :: ls).length - 1 = ((l2 :: ls).length - 1) + 1 := by simp
      rw [hlen, Finset.sum_range_succ']
      have hd : ∀ k, dipAt (dip.map List.tail) k = dipAt dip (k + 1) := by
        intro k
        cases dip with
        | none => rfl
        | some d => simp [dipAt]
      have hsum : ∑ k ∈ Finset.range ((l2 :: ls).length - 1), gapE ((l2 :: ls).getD k dummy) ((l2 :: ls).getD (k + 1) dummy)
          (J1.getD k 0) (J2.getD k 0) (D.getD k ⟨0, 0, 0⟩) (dipAt (dip.map List.tail) k) x =
          ∑ k ∈ Finset.range ((l2 :: ls).length - 1), gapE ((l1 :: l2 :: ls).getD (k + 1) dummy)
          ((l1 :: l2 :: ls).getD (k + 1 + 1) dummy) ((j1 :: J1).getD (k + 1) 0) ((j2 :: J2).getD (k + 1) 0)
          ((d :: D).getD (k + 1) ⟨0, 0, 0⟩) (dipAt dip (k + 1)) x :=
        Finset.sum_congr rfl fun k _ => by rw [hd]; rfl
      rw [hsum]
      have h0 : dipoleStep (exchange e l1 l2 j1 j2 d x) l1 l2 dip x =
          e + gapE ((l1 :: l2 :: ls).getD 0 dummy) ((l1 :: l2 :: ls).getD (0 + 1) dummy) ((j1 :: J1).getD 0 0)
            ((j2 :: J2).getD 0 0) ((d :: D).getD 0 ⟨0, 0, 0⟩) (dipAt dip 0) x := by
        rcases dip with _ | _ | ⟨mat, mats⟩
        · simp [dipoleStep, exchange_eq, gapE, dipAt]
        · simp [dipoleStep, exchange_eq, gapE, dipAt]
        · simp [dipoleStep, exchange_eq, dipolar_eq, gapE, dipAt]; ring
      rw [h0]; ring

theorem foldl_energy (ls : List (Layer ℝ)) (H : CVec ℝ) (x : Coord → ℝ) (e : ℝ) :
    ls.foldl (fun e l => e + l.noInteraction H x * l.thickness) e =
      e + ∑ k ∈ Finset.range ls.length, (ls.getD k dummy).noInteraction H x * (ls.getD k dummy).thickness := by
  induction ls generalizing e with
  | nil => simp
  | cons l ls ih =>
    rw [List.foldl_cons, ih, List.length_cons, Finset.sum_range_succ']
    simp only [List.getD_cons_succ, List.getD_cons_zero]; ring

/-- The coupling lists have one entry per gap. -/
structure Solver.Sized (s : Solver ℝ) : Prop where
  j1 : s.layers.length = s.J1.length + 1
  j2 : s.layers.length = s.J2.length + 1
  d : s.layers.length = s.ilD.length + 1

/-- The energy of one gap of a solver. -/
noncomputable def Solver.gap (s : Solver ℝ) (k : Nat) (x : Coord → ℝ) : ℝ :=
  gapE (s.layerAt k) (s.layerAt (k + 1)) (s.J1.getD k 0) (s.J2.getD k 0) (s.ilD.getD k ⟨0, 0, 0⟩) (dipAt s.dipole k) x

theorem energy_sum (s : Solver ℝ) (h : s.Sized) (H : CVec ℝ) (x : Coord → ℝ) :
    s.energy H x = ∑ k ∈ Finset.range s.layers.length, (s.layerAt k).noInteraction H x * (s.layerAt k).thickness +
      ∑ k ∈ Finset.range (s.layers.length - 1), s.gap k x := by
  unfold Solver.energy
  rw [couplings_eq x _ _ _ _ _ _ h.j1 h.j2 h.d, foldl_energy]
  simp only [ofNat_real, Nat.cast_zero, zero_add, layerAt_eq, Solver.gap]

end SB
