import Verif.Lemmas.Vec
import Verif.Spec.Groups

/-! # C41: dipole fields -/

set_option linter.unusedSectionVars false

namespace Dipole
open Spec

/-- helper -/
theorem away_length (r : CVec ℝ) : r.length = away r := by simp [CVec.length, away]

/-- helper -/
theorem away_sq (r : CVec ℝ) : away r ^ 2 = r.x ^ 2 + r.y ^ 2 + r.z ^ 2 := Real.sq_sqrt (by positivity)

/-- helper -/
theorem apart_pos {r1 r2 : CVec ℝ} (h : Apart r1 r2) : 0 < away (r1 - r2) := lt_of_lt_of_le (by norm_num) h

/-- helper -/
theorem apart_iff (r1 r2 : CVec ℝ) : Scalar.ltb (r1 - r2).length (1e-10 : ℝ) = false ↔ Apart r1 r2 := by
  rw [away_length]; unfold Apart; simp

/-- helper -/
theorem apart_lit (r1 r2 : CVec ℝ) :
    Scalar.ltb (r1 - r2).length (@OfScientific.ofScientific ℝ Scalar.instOfSci 1 true 10) = false ↔ Apart r1 r2 := by
  rw [away_length]; unfold Apart; simp

/-- helper -/
theorem tensorOf_apply (r m : CVec ℝ) (hr : 0 < away r) (c : ℝ) :
    apply (tensorOf r) (smul c m) = pointDipole (smul c m) r := by
  have h2 := away_sq r
  have h0 : away r ≠ 0 := hr.ne'
  unfold apply tensorOf pointDipole
  dsimp only
  simp only [away_length, CVec.mulr_x, CVec.mulr_y, CVec.mulr_z, Scalar.powi_real, Scalar.ofNat_real, Scalar.pi_real, Nat.cast_ofNat, smul]
  have hpi := Real.pi_ne_zero
  have e5 : away r ^ 5 = away r ^ 2 * away r ^ 3 := by ring
  ext
  · dsimp only; field_simp; rw [h2]; ring
  · dsimp only; field_simp; rw [h2]; ring
  · dsimp only; field_simp; rw [h2]; ring

/-- C41: the tensor function gives the field of a point dipole with the moment of the source, evaluated at the target,
for points at least 1e-10 apart; for closer points it raises. -/
theorem C41_tensor_function (r1 r2 : CVec ℝ) (l1 l2 : Layer ℝ) :
    (Apart r1 r2 → noumra r1 r2 l1 l2 = .ok (pointDipole (moment l2) (r1 - r2))) ∧
    (¬ Apart r1 r2 → noumra r1 r2 l1 l2 = .error .tooClose) := by
  constructor
  · intro h
    unfold noumra tensor
    dsimp only
    rw [if_neg (by rw [(apart_lit r1 r2).2 h]; simp)]
    dsimp only
    congr 1
    unfold moment
    rw [← tensorOf_apply _ _ (apart_pos h)]
    unfold Tensor.interaction apply Const.mu0
    dsimp only
    simp only [smul, Scalar.ofSci_real_true]
    ext
    · simp only [CVec.mulr_x]; norm_num; ring
    · simp only [CVec.mulr_y]; norm_num; ring
    · simp only [CVec.mulr_z]; norm_num; ring
  · intro h
    unfold noumra tensor
    dsimp only
    rw [if_pos (by rw [← apart_lit] at h; simpa using h)]

/-- C41: the default function gives 4π times that field. -/
theorem C41_default_function (r1 r2 : CVec ℝ) (l1 l2 : Layer ℝ) :
    (Apart r1 r2 → compute r1 r2 l1 l2 = .ok (smul (4 * Real.pi) (pointDipole (moment l2) (r1 - r2)))) ∧
    (¬ Apart r1 r2 → compute r1 r2 l1 l2 = .error .tooClose) := by
  constructor
  · intro h
    have h0 : away (r1 - r2) ≠ 0 := (apart_pos h).ne'
    unfold compute
    dsimp only
    rw [if_neg (by rw [(apart_lit r1 r2).2 h]; simp)]
    unfold CVec.div
    rw [away_length]
    simp only [Scalar.powi_real, Scalar.eqb_real, Scalar.ofNat_real, Nat.cast_zero, pow_eq_zero_iff, ne_eq, OfNat.ofNat_ne_zero, not_false_eq_true,
      h0, decide_false, Bool.false_eq_true, if_false]
    congr 1
    have hpi := Real.pi_ne_zero
    unfold moment pointDipole Const.mu0 CVec.dot
    simp only [smul, Scalar.ofSci_real_true]
    ext
    · simp; field_simp
    · simp; field_simp
    · simp; field_simp
  · intro h
    unfold compute
    dsimp only
    rw [if_pos (by rw [← apart_lit] at h; simpa using h)]

/-- C41: hence the two functions never agree on a source with a non-zero field; they differ by the factor 4π. A concrete
pair, with a saturation magnetisation of `mu0`, unit volume, at distance one. -/
theorem C41_agreement_refuted : ∃ (r1 r2 : CVec ℝ) (l1 l2 : Layer ℝ), Apart r1 r2 ∧ compute r1 r2 l1 l2 ≠ noumra r1 r2 l1 l2 := by
  obtain ⟨l, hl⟩ : ∃ l : Layer ℝ, Layer.plain "free" (⟨0, 0, 1⟩ : CVec ℝ) ⟨0, 0, 1⟩ (1257 / 10 ^ 9) 1 1 Tensor.zero 0 (fun _ => 0)
      (fun _ _ _ _ => 0) = .ok l := by
    unfold Layer.plain Layer.mk'
    rw [if_neg (by simp [CVec.length]), if_neg (by simp [CVec.length])]
    exact ⟨_, rfl⟩
  have hm : l.mag = ⟨0, 0, 1⟩ ∧ l.Ms = 1257 / 10 ^ 9 ∧ l.thickness = 1 ∧ l.cellSurface = 1 := by
    unfold Layer.plain Layer.mk' at hl
    rw [if_neg (by simp [CVec.length]), if_neg (by simp [CVec.length])] at hl
    simp only [Except.ok.injEq] at hl
    subst hl
    exact ⟨rfl, rfl, rfl, rfl⟩
  have hd : away ((⟨1, 0, 0⟩ : CVec ℝ) - ⟨0, 0, 0⟩) = 1 := by simp [away]
  have ha : Apart (⟨1, 0, 0⟩ : CVec ℝ) ⟨0, 0, 0⟩ := by unfold Apart; rw [hd]; norm_num
  refine ⟨⟨1, 0, 0⟩, ⟨0, 0, 0⟩, l, l, ha, ?_⟩
  rw [(C41_default_function _ _ _ _).1 ha, (C41_tensor_function _ _ _ _).1 ha]
  intro h
  have hz := congrArg CVec.z (Except.ok.inj h)
  have hpi := Real.two_le_pi
  have h0 := Real.pi_ne_zero
  simp only [pointDipole, smul, moment, hd, hm.1, hm.2.1, hm.2.2.1, hm.2.2.2] at hz
  simp at hz
  have : Real.pi * Real.pi⁻¹ = 1 := mul_inv_cancel₀ h0
  field_simp at hz
  linarith

/-- helper -/
theorem pointDipole_even (M r : CVec ℝ) : pointDipole M ⟨-r.x, -r.y, -r.z⟩ = pointDipole M r := by
  have : away ⟨-r.x, -r.y, -r.z⟩ = away r := by simp [away]
  unfold pointDipole
  rw [this]
  ext <;> simp [smul] <;> ring

/-- helper -/
theorem away_swap (r1 r2 : CVec ℝ) : away (r2 - r1) = away (r1 - r2) := by
  unfold away
  congr 1
  simp only [CVec.sub_x, CVec.sub_y, CVec.sub_z]; ring

/-- helper -/
theorem pointDipole_swap (M r1 r2 : CVec ℝ) : pointDipole M (r2 - r1) = pointDipole M (r1 - r2) := by
  rw [← pointDipole_even M (r1 - r2)]
  congr 1
  ext <;> simp

/-- helper -/
theorem pointDipole_add (a b : ℝ) (M M' r : CVec ℝ) :
    pointDipole (smul a M + smul b M') r = smul a (pointDipole M r) + smul b (pointDipole M' r) := by
  unfold pointDipole
  ext <;> simp [smul] <;> ring

/-- The functions a group can be given that act like dipoles: the field is a fixed multiple of the point-dipole field. -/
def DipoleLike (f : Interaction ℝ) (c : ℝ) : Prop := ∀ r1 r2 l1 l2,
  (Apart r1 r2 → f r1 r2 l1 l2 = .ok (smul c (pointDipole (moment l2) (r1 - r2)))) ∧ (¬ Apart r1 r2 → f r1 r2 l1 l2 = .error .tooClose)

/-- helper -/
theorem compute_like : DipoleLike compute (4 * Real.pi) := C41_default_function

/-- helper -/
theorem noumra_like : DipoleLike noumra 1 := by
  intro r1 r2 l1 l2
  have : ∀ v : CVec ℝ, smul 1 v = v := fun v => by ext <;> simp [smul]
  rw [this]
  exact C41_tensor_function r1 r2 l1 l2

/-- Physical properties of an interaction function. -/
structure Physical (f : Interaction ℝ) : Prop where
  /-- the target layer does not matter, only its position -/
  target : ∀ r1 r2 l1 l1' l2, f r1 r2 l1 l2 = f r1 r2 l1' l2
  /-- linear in the source magnetisation -/
  linear : ∀ r1 r2 l1 (l2 : Layer ℝ) (a b : ℝ) (m m' : CVec ℝ), Apart r1 r2 → ∃ h h', f r1 r2 l1 (l2.setMag m) = .ok h ∧
    f r1 r2 l1 (l2.setMag m') = .ok h' ∧ f r1 r2 l1 (l2.setMag (smul a m + smul b m')) = .ok (smul a h + smul b h')
  /-- even in the separation -/
  even : ∀ r1 r2 l1 l2, f r2 r1 l1 l2 = f r1 r2 l1 l2
  /-- depends on the separation only -/
  shift : ∀ r1 r2 d l1 l2, f (r1 + d) (r2 + d) l1 l2 = f r1 r2 l1 l2
  /-- reciprocity: each moment has the same energy in the field of the other -/
  reciprocal : ∀ r1 r2 (l1 l2 : Layer ℝ), Apart r1 r2 → ∃ h12 h21, f r1 r2 l1 l2 = .ok h12 ∧ f r2 r1 l2 l1 = .ok h21 ∧
    (moment l1).dot h12 = (moment l2).dot h21
  /-- decay with the cube of the distance -/
  cube : ∀ (r : CVec ℝ) l1 l2 (k : ℝ), 1 ≤ k → Apart r .zero → ∃ h, f r .zero l1 l2 = .ok h ∧
    f (smul k r) .zero l1 l2 = .ok (smul (1 / k ^ 3) h)

/-- helper -/
theorem DipoleLike.physical {f : Interaction ℝ} {c : ℝ} (hf : DipoleLike f c) : Physical f where
  target r1 r2 l1 l1' l2 := by
    by_cases h : Apart r1 r2
    · rw [(hf _ _ _ _).1 h, (hf _ _ _ _).1 h]
    · rw [(hf _ _ _ _).2 h, (hf _ _ _ _).2 h]
  linear r1 r2 l1 l2 a b m m' h := by
    refine ⟨_, _, (hf _ _ _ _).1 h, (hf _ _ _ _).1 h, ?_⟩
    rw [(hf _ _ _ _).1 h]
    have : moment (l2.setMag (smul a m + smul b m')) = smul a (moment (l2.setMag m)) + smul b (moment (l2.setMag m')) := by
      ext <;> simp [moment, smul, Layer.setMag] <;> ring
    rw [this, pointDipole_add]
    congr 1
    ext <;> simp [smul] <;> ring
  even r1 r2 l1 l2 := by
    have hi : Apart r2 r1 ↔ Apart r1 r2 := by unfold Apart; rw [away_swap]
    by_cases h : Apart r1 r2
    · rw [(hf _ _ _ _).1 h, (hf _ _ _ _).1 (hi.2 h), pointDipole_swap]
    · rw [(hf _ _ _ _).2 h, (hf _ _ _ _).2 (mt hi.1 h)]
  shift r1 r2 d l1 l2 := by
    have e : (r1 + d) - (r2 + d) = r1 - r2 := by ext <;> simp
    have hi : Apart (r1 + d) (r2 + d) ↔ Apart r1 r2 := by unfold Apart; rw [e]
    by_cases h : Apart r1 r2
    · rw [(hf _ _ _ _).1 h, (hf _ _ _ _).1 (hi.2 h), e]
    · rw [(hf _ _ _ _).2 h, (hf _ _ _ _).2 (mt hi.1 h)]
  reciprocal r1 r2 l1 l2 h := by
    have h' : Apart r2 r1 := by unfold Apart; rw [away_swap]; exact h
    refine ⟨_, _, (hf _ _ _ _).1 h, (hf _ _ _ _).1 h', ?_⟩
    rw [pointDipole_swap]
    unfold pointDipole CVec.dot
    simp only [smul]
    ring
  cube r l1 l2 k hk h := by
    have hk0 : (0 : ℝ) < k := by linarith
    have e0 : ∀ v : CVec ℝ, v - CVec.zero = v := fun v => by ext <;> simp
    have hd : away (smul k r) = k * away r := by
      unfold away
      rw [show (smul k r).x ^ 2 + (smul k r).y ^ 2 + (smul k r).z ^ 2 = k ^ 2 * (r.x ^ 2 + r.y ^ 2 + r.z ^ 2) by simp [smul]; ring,
        Real.sqrt_mul (by positivity), Real.sqrt_sq hk0.le]
    have hp : 0 < away r := by have := apart_pos h; rwa [e0] at this
    have h' : Apart (smul k r) CVec.zero := by
      unfold Apart at h ⊢
      rw [e0] at h ⊢
      rw [hd]
      nlinarith
    refine ⟨_, (hf _ _ _ _).1 h, ?_⟩
    rw [(hf _ _ _ _).1 h', e0, e0]
    congr 1
    have hp' := hp.ne'
    have hk' := hk0.ne'
    unfold pointDipole
    rw [hd]
    ext <;> simp [smul] <;> field_simp

/-- C41: both provided dipole functions have the properties of a dipole field. -/
theorem C41_physical : Physical compute ∧ Physical noumra := ⟨compute_like.physical, noumra_like.physical⟩

/-- C41: the tensor is symmetric and traceless, even in the separation; applied to a moment it gives the point-dipole
field. The reservoir builds the same tensor, without the distance check. -/
theorem C41_tensor (r1 r2 : CVec ℝ) (h : Apart r1 r2) : ∃ d, tensor r1 r2 = .ok d ∧ tensor r2 r1 = .ok d ∧ Reservoir.pairTensor r1 r2 = d ∧
    d.r0.y = d.r1.x ∧ d.r0.z = d.r2.x ∧ d.r1.z = d.r2.y ∧ d.r0.x + d.r1.y + d.r2.z = 0 ∧
    ∀ M, apply d M = pointDipole M (r1 - r2) := by
  have hd := apart_pos h
  have h' : Apart r2 r1 := by unfold Apart; rw [away_swap]; exact h
  have he : tensorOf (r2 - r1) = tensorOf (r1 - r2) := by
    unfold tensorOf
    simp only [away_length, away_swap, Scalar.powi_real]
    ext <;> simp only [CVec.sub_x, CVec.sub_y, CVec.sub_z, CVec.mulr_x, CVec.mulr_y, CVec.mulr_z] <;> ring
  refine ⟨tensorOf (r1 - r2), ?_, ?_, he, ?_, ?_, ?_, ?_, ?_⟩
  · unfold tensor; dsimp only; rw [if_neg (by rw [(apart_lit r1 r2).2 h]; simp)]
  · unfold tensor; dsimp only; rw [if_neg (by rw [(apart_lit r2 r1).2 h']; simp), he]
  · rfl
  · rfl
  · rfl
  · unfold tensorOf
    dsimp only
    simp only [CVec.mulr_x, CVec.mulr_y, CVec.mulr_z, away_length, Scalar.powi_real, away_sq, Scalar.ofNat_real, Nat.cast_ofNat]
    ring
  · intro M
    have := tensorOf_apply (r1 - r2) M hd 1
    have e1 : smul 1 M = M := by ext <;> simp [smul]
    rwa [e1] at this

/-- the hypothesis is met -/
example : Apart ⟨0, 0, 0⟩ ⟨1, 0, 0⟩ := by
  unfold Apart away; simp; norm_num

end Dipole
