import Verif.Lemmas.Run
import Verif.Spec.Rotation

/-! Helper lemmas: every ingredient of a solver step commutes with rotations. -/

set_option linter.unusedSectionVars false
set_option linter.unusedSimpArgs false

namespace Spec
namespace Mat

@[simp] theorem apply_add (M : Mat) (a b : CVec ℝ) : M.apply (a + b) = M.apply a + M.apply b := by
  ext <;> simp [apply, dot3] <;> ring
@[simp] theorem apply_sub (M : Mat) (a b : CVec ℝ) : M.apply (a - b) = M.apply a - M.apply b := by
  ext <;> simp [apply, dot3] <;> ring
@[simp] theorem apply_mul (M : Mat) (a : CVec ℝ) (s : ℝ) : M.apply (a * s) = M.apply a * s := by
  ext <;> simp [apply, dot3] <;> ring
@[simp] theorem apply_lmul (M : Mat) (a : CVec ℝ) (s : ℝ) : M.apply (s * a) = s * M.apply a := by
  ext <;> simp [apply, dot3] <;> ring
@[simp] theorem apply_divU (M : Mat) (a : CVec ℝ) (s : ℝ) : M.apply (a.divU s) = (M.apply a).divU s := by
  ext <;> simp [apply, dot3, CVec.divU] <;> ring
@[simp] theorem apply_zero (M : Mat) : M.apply .zero = .zero := by
  ext <;> simp [apply, dot3]

namespace IsRotation
variable {M : Mat} (h : M.IsRotation)
include h

theorem dot (a b : CVec ℝ) : (M.apply a).dot (M.apply b) = a.dot b := by
  simp only [apply, dot3, CVec.dot]
  linear_combination a.x * b.x * h.cxx + a.y * b.y * h.cyy + a.z * b.z * h.czz
    + (a.x * b.y + a.y * b.x) * h.cxy + (a.x * b.z + a.z * b.x) * h.cxz + (a.y * b.z + a.z * b.y) * h.cyz

theorem length (a : CVec ℝ) : (M.apply a).length = a.length := by
  rw [CVec.length_eq, CVec.length_eq, CVec.normSq_eq_dot, CVec.normSq_eq_dot, h.dot]

/-- the third row is the cross product of the first two, and cyclically -/
theorem third : M.r2 = M.r0.cross M.r1 := by
  have h1 := h.r00; have h2 := h.r11; have h3 := h.r22; have h4 := h.r01; have h7 := h.det
  simp only [dot3] at h1 h2 h3 h4
  have hs : (M.r2.x - (M.r0.cross M.r1).x) ^ 2 + (M.r2.y - (M.r0.cross M.r1).y) ^ 2
      + (M.r2.z - (M.r0.cross M.r1).z) ^ 2 = 0 := by
    simp only [CVec.cross_x, CVec.cross_y, CVec.cross_z]
    linear_combination h3 - 2 * h7 + h1 + (M.r0.x * M.r0.x + M.r0.y * M.r0.y + M.r0.z * M.r0.z) * (h2)
      - (M.r0.x * M.r1.x + M.r0.y * M.r1.y + M.r0.z * M.r1.z) * h4
  ext
  · nlinarith [sq_nonneg (M.r2.x - (M.r0.cross M.r1).x), sq_nonneg (M.r2.y - (M.r0.cross M.r1).y), sq_nonneg (M.r2.z - (M.r0.cross M.r1).z)]
  · nlinarith [sq_nonneg (M.r2.x - (M.r0.cross M.r1).x), sq_nonneg (M.r2.y - (M.r0.cross M.r1).y), sq_nonneg (M.r2.z - (M.r0.cross M.r1).z)]
  · nlinarith [sq_nonneg (M.r2.x - (M.r0.cross M.r1).x), sq_nonneg (M.r2.y - (M.r0.cross M.r1).y), sq_nonneg (M.r2.z - (M.r0.cross M.r1).z)]

theorem cyc : (⟨M.r1, M.r2, M.r0⟩ : Mat).IsRotation where
  r00 := h.r11
  r11 := h.r22
  r22 := h.r00
  r01 := h.r12
  r02 := by have := h.r01; simp only [dot3] at this ⊢; linarith
  r12 := by have := h.r02; simp only [dot3] at this ⊢; linarith
  cxx := by have := h.cxx; simp only; linarith
  cyy := by have := h.cyy; simp only; linarith
  czz := by have := h.czz; simp only; linarith
  cxy := by have := h.cxy; simp only; linarith
  cxz := by have := h.cxz; simp only; linarith
  cyz := by have := h.cyz; simp only; linarith
  det := by have := h.det; simp only; linarith

theorem cross (a b : CVec ℝ) : (M.apply a).cross (M.apply b) = M.apply (a.cross b) := by
  have e2 := h.third
  have e0 := h.cyc.third
  have e1 := h.cyc.cyc.third
  simp only at e0 e1
  rw [CVec.ext_iff] at e0 e1 e2
  simp only [CVec.cross_x, CVec.cross_y, CVec.cross_z] at e0 e1 e2
  ext
  · simp only [apply, dot3, CVec.cross_x, CVec.cross_y, CVec.cross_z]
    linear_combination (-(a.y * b.z - a.z * b.y)) * e0.1 - (a.z * b.x - a.x * b.z) * e0.2.1 - (a.x * b.y - a.y * b.x) * e0.2.2
  · simp only [apply, dot3, CVec.cross_x, CVec.cross_y, CVec.cross_z]
    linear_combination (-(a.y * b.z - a.z * b.y)) * e1.1 - (a.z * b.x - a.x * b.z) * e1.2.1 - (a.x * b.y - a.y * b.x) * e1.2.2
  · simp only [apply, dot3, CVec.cross_x, CVec.cross_y, CVec.cross_z]
    linear_combination (-(a.y * b.z - a.z * b.y)) * e2.1 - (a.z * b.x - a.x * b.z) * e2.2.1 - (a.x * b.y - a.y * b.x) * e2.2.2

theorem normalize (a : CVec ℝ) : (M.apply a).normalize = M.apply a.normalize := by
  unfold CVec.normalize
  dsimp only
  rw [h.length]
  split
  · rfl
  · ext <;> simp [apply, dot3] <;> ring

theorem tensor (N : Tensor ℝ) (v : CVec ℝ) (Ms : ℝ) :
    Tensor.interaction (M.apply v) (M.conj N) Ms = M.apply (Tensor.interaction v N Ms) := by
  have key : tApply (M.conj N) (M.apply v) = M.apply (tApply N v) := by
    have rowe : ∀ r : CVec ℝ, dot3 r (tApply N M.r0) * dot3 M.r0 v + dot3 r (tApply N M.r1) * dot3 M.r1 v
        + dot3 r (tApply N M.r2) * dot3 M.r2 v = dot3 r (tApply N v) := by
      intro r
      simp only [dot3, tApply]
      linear_combination
        (r.x * N.r0.x + r.y * N.r1.x + r.z * N.r2.x) * (v.x * h.cxx + v.y * h.cxy + v.z * h.cxz)
        + (r.x * N.r0.y + r.y * N.r1.y + r.z * N.r2.y) * (v.x * h.cxy + v.y * h.cyy + v.z * h.cyz)
        + (r.x * N.r0.z + r.y * N.r1.z + r.z * N.r2.z) * (v.x * h.cxz + v.y * h.cyz + v.z * h.czz)
    ext
    · exact rowe M.r0
    · exact rowe M.r1
    · exact rowe M.r2
  have e : ∀ N' : Tensor ℝ, ∀ w, Tensor.interaction w N' Ms = tApply N' w * (Ms / Const.mu0) := fun _ _ => rfl
  rw [e, e, key, apply_mul]

end IsRotation
end Mat

theorem idmiV_cross (l : Layer ℝ) (D c : CVec ℝ) : l.idmiV D c = (c.cross D).divU (l.Ms * l.thickness) := by
  unfold Layer.idmiV
  congr 1
  ext <;>
  · simp only [CVec.dot, CVec.cross_x, CVec.cross_y, CVec.cross_z, Scalar.ofNat_real, Nat.cast_zero]
    ring

variable {M : Mat}

/-- rotated layers: setting related magnetisations -/
theorem RotatedLayer.setMag {l l' : Layer ℝ} (h : RotatedLayer M l l') {m : CVec ℝ} :
    RotatedLayer M (l.setMag m) (l'.setMag (M.apply m)) := { h with mag := rfl }

theorem RotatedLayer.setCache {l l' : Layer ℝ} (h : RotatedLayer M l l') (c c' : LayerLog ℝ) :
    RotatedLayer M (l.setCache c) (l'.setCache c') := { h with }

theorem RotatedLayer.setGpos3 {l l' : Layer ℝ} (h : RotatedLayer M l l') :
    RotatedLayer M (l.setGpos (l.gpos + 3)) (l'.setGpos (l.gpos + 3)) :=
  { h with
    gpos := rfl
    draws := fun k => by
      have := h.draws (k + 1)
      have e : l.gpos + 3 + 3 * k = l.gpos + 3 * (k + 1) := by ring
      change (⟨l'.gauss (l.gpos + 3 + 3 * k), l'.gauss (l.gpos + 3 + 3 * k + 1), l'.gauss (l.gpos + 3 + 3 * k + 2)⟩ : CVec ℝ)
        = M.apply ⟨l.gauss (l.gpos + 3 + 3 * k), l.gauss (l.gpos + 3 + 3 * k + 1), l.gauss (l.gpos + 3 + 3 * k + 2)⟩
      rw [e]; exact this }

theorem RotatedLayer.guard {l l' : Layer ℝ} (h : RotatedLayer M l l') : l'.Guard ↔ l.Guard := by
  unfold Layer.Guard; rw [h.Ms, h.thickness]

theorem RotatedLayer.dipV (hM : M.IsRotation) {l l' : Layer ℝ} (h : RotatedLayer M l l') (b a : CVec ℝ) :
    l'.dipV (M.apply b) (M.apply a) = M.apply (l.dipV b a) := by
  unfold Layer.dipV
  rw [h.dipB, h.dipT, h.Ms, hM.tensor, hM.tensor, Mat.apply_add]

theorem RotatedLayer.heffV (hM : M.IsRotation) {l l' : Layer ℝ} (h : RotatedLayer M l l') (t : ℝ)
    (m b a dip fl : CVec ℝ) :
    l'.heffV t (M.apply m) (M.apply b) (M.apply a) (M.apply dip) (M.apply fl) = M.apply (l.heffV t m b a dip fl) := by
  unfold Layer.heffV
  simp only [idmiV_cross, Layer.iecV, Layer.anisotropyField, h.ext, h.oe, h.dmi, h.res, h.idmiB, h.idmiT, h.iecB,
    h.iecT, h.quadB, h.quadT, h.ani, h.anis, h.Ms, h.thickness, h.demag, hM.tensor, hM.cross, hM.dot,
    Mat.apply_add, Mat.apply_sub, Mat.apply_mul, Mat.apply_divU]

theorem RotatedLayer.reference {l l' : Layer ℝ} (h : RotatedLayer M l l') (b a : CVec ℝ) :
    l'.reference (M.apply b) (M.apply a) = M.apply (l.reference b a) := by
  unfold Layer.reference
  rw [h.refType, h.ref]
  cases l.referenceType <;> simp

theorem RotatedLayer.solve (hM : M.IsRotation) {l l' : Layer ℝ} (h : RotatedLayer M l l') (t : ℝ)
    (m b a f : CVec ℝ) :
    (l'.solveLLG t (M.apply m) (M.apply b) (M.apply a) (M.apply f)).1 = M.apply (l.solveLLG t m b a f).1 := by
  unfold Layer.solveLLG
  dsimp only
  rw [h.stt, h.sot, h.dyn, h.reference]
  split
  · simp only [Layer.sttEta, h.cur, h.alt, h.pol, h.slon, h.Ms, h.thickness, h.damping, h.kappa, h.beta, hM.cross,
      hM.dot, Mat.apply_add, Mat.apply_mul]
  · split
    · simp only [h.cur, h.fl, h.dl, h.flt, h.dlt, h.damping, hM.cross, Mat.apply_add, Mat.apply_mul]
    · simp only [h.damping, hM.cross, Mat.apply_add, Mat.apply_mul]

theorem RotatedLayer.stoch (hM : M.IsRotation) {l l' : Layer ℝ} (h : RotatedLayer M l l') (m w : CVec ℝ) :
    l'.stochasticTorque (M.apply m) (M.apply w) = M.apply (l.stochasticTorque m w) := by
  unfold Layer.stochasticTorque
  simp only [h.damping, hM.cross, Mat.apply_add, Mat.apply_mul]

/-- Rotation is preserved by every solver. -/
theorem rotSim (hM : M.IsRotation) : Sim ℝ (RotatedLayer M) (fun a b => b = M.apply a) Eq where
  mag h := h.mag
  setMag := by rintro l l' m _ h rfl; rw [hM.normalize]; exact h.setMag
  llg := by
    rintro l l' t _ m _ b _ a _ h rfl rfl rfl rfl
    by_cases hg : l.Guard
    · obtain ⟨c, hc⟩ := l.llg_ok t m b a hg
      obtain ⟨c', hc'⟩ := l'.llg_ok t (M.apply m) (M.apply b) (M.apply a) (h.guard.2 hg)
      rw [hc, hc']
      refine .ok ?_ (h.setCache c c')
      unfold Layer.llgV Layer.llgDV
      have hz : (CVec.zero : CVec ℝ) = M.apply .zero := M.apply_zero.symm
      have e : l'.heffV t (M.apply m) (M.apply b) (M.apply a) (l'.dipV (M.apply b) (M.apply a)) .zero
          = M.apply (l.heffV t m b a (l.dipV b a) .zero) := by
        rw [h.dipV hM, ← h.heffV hM, M.apply_zero]
      rw [e, h.solve hM]
    · obtain ⟨c, hc⟩ := l.llg_err t m b a hg
      obtain ⟨c', hc'⟩ := l'.llg_err t (M.apply m) (M.apply b) (M.apply a) (fun q => hg (h.guard.1 q))
      rw [hc, hc']
      exact .fail (h.setCache c c')
  langevin := by
    rintro l l' t _ h rfl
    unfold Layer.langevinVector
    rw [h.tempSet]
    split
    · exact .ok M.apply_zero.symm h
    · have hsd : l'.langevinStd t = l.langevinStd t := by
        unfold Layer.langevinStd; rw [h.volume, h.damping, h.temp, h.Ms]
      rw [hsd]
      rcases l.langevinStd t with e | sd
      · exact .fail h
      · refine .ok ?_ ?_
        · rw [Mat.apply_mul]
          have := h.draws 0
          simp only [Nat.mul_zero, Nat.add_zero] at this
          have e : (CVec.ofStream l'.gauss l'.gpos).1 = M.apply (CVec.ofStream l.gauss l.gpos).1 := by
            rw [h.gpos]; exact this
          rw [e]
        · have := h.setGpos3
          have e2 : (CVec.ofStream l'.gauss l'.gpos).2 = l.gpos + 3 := by rw [h.gpos]; rfl
          rw [e2]; exact this
  oneF := by
    intro l l' h
    unfold Layer.oneFVector
    rw [h.scale, h.scale']
    simp only [Scalar.eqb_real, Scalar.ofNat_real, Nat.cast_zero, decide_true, if_true]
    exact .ok M.apply_zero.symm h
  stoch := by rintro l l' m _ w _ h rfl rfl; exact h.stoch hM m w
  zero := M.apply_zero.symm
  add := by rintro a _ b _ rfl rfl; exact (M.apply_add a b).symm
  mul := by rintro a _ s rfl; exact (M.apply_mul a s).symm
  lmul := by rintro a _ s rfl; exact (M.apply_lmul a s).symm
  div6 := by rintro a _ s rfl; exact (M.apply_divU a s).symm
  nan := by intros; simp
  time := by rintro t _ s rfl; rfl

end Spec
