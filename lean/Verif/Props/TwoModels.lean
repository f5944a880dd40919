import Verif.Props.Relax
import Verif.Props.PySbDyn
import Verif.Props.PyVector

set_option linter.unusedSectionVars false

/-!
# C124: the Smit-Beljers model and the simulation describe the same stack

The Python part (`SB.Solver`, angles, Ms in A/m) and the C++ part (`Layer`, vectors, Ms in T) are two models of the same magnets. Here is
what it means that a list of layers of the simulation is the stack of a solver, and what the two then have in common. The constants
differ: `μ₀` is 12.566e-7 in Python and 12.57e-7 in C++.
-/

namespace Spec

/-- Unit vector and the two tangent vectors at the angles `θ`, `φ`. -/
noncomputable def dir (θ φ : ℝ) : CVec ℝ := ⟨Real.sin θ * Real.cos φ, Real.sin θ * Real.sin φ, Real.cos θ⟩
noncomputable def dirTheta (θ φ : ℝ) : CVec ℝ := ⟨Real.cos θ * Real.cos φ, Real.cos θ * Real.sin φ, -Real.sin θ⟩
noncomputable def dirPhi (φ : ℝ) : CVec ℝ := ⟨-Real.sin φ, Real.cos φ, 0⟩

/-- A layer of the simulation has the parameters of a layer of the solver in the field `H`: Ms in T, both anisotropies together one axis,
a diagonal demagnetisation tensor (rescaled by the ratio of the two values of `μ₀`), no stray field. -/
structure SameLayer (l : SB.Layer ℝ) (H : CVec ℝ) (c : Layer ℝ) : Prop where
  ms : c.Ms = 12.566e-7 * l.Ms
  thickness : c.thickness = l.thickness
  field : staticField c = H + l.Hdmi
  anis : ∀ m : CVec ℝ, c.anisotropyDriver.value 0 * c.anis.dot m ^ 2 =
    l.Ks * m.z ^ 2 + l.Kv.mag * (m.x * Real.cos l.Kv.phi + m.y * Real.sin l.Kv.phi) ^ 2
  demag : c.demagTensor = ⟨⟨12.57 / 12.566 * l.Ndemag.x, 0, 0⟩, ⟨0, 12.57 / 12.566 * l.Ndemag.y, 0⟩, ⟨0, 0, 12.57 / 12.566 * l.Ndemag.z⟩⟩
  dipole : c.dipoleTop = ⟨⟨0, 0, 0⟩, ⟨0, 0, 0⟩, ⟨0, 0, 0⟩⟩

/-- The layers of the simulation are the stack of the solver in the field `H`. -/
structure SameStack (s : SB.Solver ℝ) (H : CVec ℝ) (ls : List (Layer ℝ)) : Prop where
  length : ls.length = s.layers.length
  layer : ∀ (i : Nat) (l : SB.Layer ℝ) (c : Layer ℝ), s.layers[i]? = some l → ls[i]? = some c → SameLayer l H c
  j1 : ∀ (i : Nat) (c : Layer ℝ), i + 1 < ls.length → ls[i]? = some c → s.J1[i]? = some (c.IECDriverTop.value 0)
  j2 : ∀ (i : Nat) (c : Layer ℝ), i + 1 < ls.length → ls[i]? = some c → s.J2[i]? = some (c.IECQuadDriverTop.value 0)
  noDmi : ∀ d ∈ s.ilD, d = ⟨0, 0, 0⟩
  noDipole : s.dipole = none

/-- The directions of the layers at the position `x`. -/
noncomputable def pose (s : SB.Solver ℝ) (x : SB.Coord → ℝ) (i : Nat) : CVec ℝ :=
  dir (x (.theta (s.layerAt i).id)) (x (.phi (s.layerAt i).id))

/-- The field on the layer `c` at index `i` of the simulated stack when the layers point along `a`. -/
noncomputable def fieldAt (ls : List (Layer ℝ)) (a : Nat → CVec ℝ) (i : Nat) (c : Layer ℝ) : CVec ℝ :=
  field c 0 (a i) (lower (fun k _ => a k) i 0) (upper ls.length (fun k _ => a k) i 0)

end Spec

namespace SB
open Spec

theorem sum_gaps (n : Nat) (c : Nat → ℝ) : ∑ k ∈ Finset.range (n - 1), c k = ∑ i : Fin n, if i.1 + 1 < n then c i else 0 := by
  rw [Fin.sum_univ_eq_sum_range (fun k => if k + 1 < n then c k else 0) n]
  cases n with
  | zero => simp
  | succ n =>
    rw [Finset.sum_range_succ, if_neg (by omega), add_zero]
    refine Finset.sum_congr rfl fun k hk => ?_
    rw [if_pos (by simp at hk; omega)]

theorem density_same {l : Layer ℝ} {H : CVec ℝ} {c : _root_.Layer ℝ} (h : SameLayer l H c) (θ φ : ℝ) (u : CVec ℝ) :
    layerEnergy c (dir θ φ) u = l.thickness * density mu0 l.Ms l.Ks l.Kv.mag l.Kv.phi (vec l.Ndemag) (vec H) (vec l.Hdmi) (Spec.unit θ φ)
      - c.IECDriverTop.value 0 * (dir θ φ).dot u - c.IECQuadDriverTop.value 0 * (dir θ φ).dot u ^ 2 := by
  have ha := h.anis (dir θ φ)
  have hm : (mu0 : ℝ) = 12.566e-7 := by norm_num [mu0]
  unfold layerEnergy density
  rw [h.demag, h.dipole, h.ms, h.field, h.thickness, hm]
  have e : ∀ k : ℝ, l.thickness * c.anisotropyDriver.value 0 * k ^ 2 = l.thickness * (c.anisotropyDriver.value 0 * k ^ 2) := fun k => by ring
  rw [e, ha]
  simp [tensorField, vec, Spec.unit, dir, CVec.dot, Fin.sum_univ_three, dotProduct]
  ring

/-- C124: the energy of the solver is the energy of the simulated stack. -/
theorem C124_energy (s : Solver ℝ) (hs : s.Sized) {H : CVec ℝ} {ls : List (_root_.Layer ℝ)} (h : SameStack s H ls) (x : Coord → ℝ) :
    s.energy H x = stackEnergy ls (pose s x) := by
  rw [C78_energy s hs (by simp [h.noDipole]), sum_gaps, stackEnergy, ← Fin.sum_univ_fun_getElem, ← Finset.sum_add_distrib]
  refine Fintype.sum_equiv (finCongr h.length.symm) _ _ fun i => ?_
  have hi : i.1 < ls.length := by rw [h.length]; exact i.2
  have hc := h.layer i _ _ (List.getElem?_eq_getElem i.2) (List.getElem?_eq_getElem hi)
  have hat : s.layerAt i = s.layers[i] := by
    simp [layerAt_eq, List.getD_eq_getElem?_getD]
  simp only [finCongr_apply, Fin.val_cast, Fin.getElem_fin, pose]
  rw [density_same hc, hat]
  by_cases hn : i.1 + 1 < s.layers.length
  · have hn' : i.1 + 1 < ls.length := by rw [h.length]; exact hn
    rw [if_pos hn, if_pos hn']
    have h1 := h.j1 i _ hn' (List.getElem?_eq_getElem hi)
    have h2 := h.j2 i _ hn' (List.getElem?_eq_getElem hi)
    have hd : s.ilD.getD i ⟨0, 0, 0⟩ = ⟨0, 0, 0⟩ := by
      rcases hq : s.ilD[i.1]? with _ | d
      · simp [List.getD_eq_getElem?_getD, hq]
      · simp [List.getD_eq_getElem?_getD, hq, h.noDmi d (List.mem_of_getElem? hq)]
    rw [List.getD_eq_getElem?_getD, List.getD_eq_getElem?_getD, h1, h2, hd, h.noDipole]
    simp [coupling, vec, dotProduct, Fin.sum_univ_three, Spec.unit, dir, CVec.dot]
    ring
  · have hn' : ¬ i.1 + 1 < ls.length := by rw [h.length]; exact hn
    rw [if_neg hn, if_neg hn']
    simp [CVec.dot]

theorem slope_theta (θ φ : ℝ) : Slope (fun t => dir t φ) (dirTheta θ φ) θ :=
  ⟨(Real.hasDerivAt_sin θ).mul_const _, (Real.hasDerivAt_sin θ).mul_const _, Real.hasDerivAt_cos θ⟩

theorem slope_phi (θ φ : ℝ) : Slope (fun t => dir θ t) (smul (Real.sin θ) (dirPhi φ)) φ := by
  refine ⟨(Real.hasDerivAt_cos φ).const_mul _, (Real.hasDerivAt_sin φ).const_mul _, ?_⟩
  have : (smul (Real.sin θ) (dirPhi φ)).z = 0 := by simp [smul, dirPhi]
  rw [this]
  exact hasDerivAt_const φ (Real.cos θ)

/-- helper: the slope of the energy in one coordinate -/
theorem slope_pose (s : Solver ℝ) (hs : s.Sized) {H : CVec ℝ} {ls : List (_root_.Layer ℝ)}
    (h : SameStack s H ls) (hp : Passive ls) (x : Coord → ℝ) {i : Nat} (hi : i < ls.length) (c : Coord) (v : CVec ℝ)
    (hv : Slope (fun t => pose s (Function.update x c t) i) v (x c))
    (ho : ∀ k < ls.length, k ≠ i → ∀ t, pose s (Function.update x c t) k = pose s x k) :
    pd (s.energy H) c x = -(ls[i].Ms * ls[i].thickness) * (fieldAt ls (pose s x) i ls[i]).dot v := by
  have hd := Junction.stack_slope hp (m := fun k t => pose s (Function.update x c t) k) (t := x c)
    (v := fun k => if k.1 = i then v else ⟨0, 0, 0⟩) (by
      intro k
      by_cases hk : k.1 = i
      · simp only [hk, if_true]; exact hv
      · simp only [hk, if_false]
        have : (fun t => pose s (Function.update x c t) k.1) = fun _ => pose s x k := funext fun t => ho k k.2 hk t
        rw [this]
        exact _root_.Layer.slope_const _ _)
  unfold pd
  simp only [C124_energy s hs h]
  rw [hd.deriv, Finset.sum_eq_single (⟨i, hi⟩ : Fin ls.length)]
  · simp only [if_true, Fin.getElem_fin]
    have hx : Function.update x c (x c) = x := Function.update_eq_self c x
    rw [_root_.Layer.field_alone (hp.alone _ (List.getElem_mem hi)), fieldAt, _root_.Layer.field_alone (hp.alone _ (List.getElem_mem hi))]
    simp only [lower, upper, hx]
    ring
  · intro k _ hk
    have : k.1 ≠ i := fun e => hk (Fin.ext e)
    simp [this, CVec.dot]
  · intro hk; exact absurd (Finset.mem_univ _) hk

theorem id_ne {s : Solver ℝ} (hid : (s.layers.map (·.id)).Nodup) {i k : Nat} (hi : i < s.layers.length) (hk : k < s.layers.length)
    (h : k ≠ i) : (s.layerAt k).id ≠ (s.layerAt i).id := by
  intro e
  have e1 : s.layerAt i = s.layers[i] := by simp [layerAt_eq, List.getD_eq_getElem?_getD, List.getElem?_eq_getElem hi]
  have e2 : s.layerAt k = s.layers[k] := by simp [layerAt_eq, List.getD_eq_getElem?_getD, List.getElem?_eq_getElem hk]
  rw [e1, e2] at e
  have := (List.nodup_iff_injective_get.1 hid) (a₁ := ⟨k, by simpa using hk⟩) (a₂ := ⟨i, by simpa using hi⟩) (by simpa using e)
  exact h (by simpa using this)

/-- C124: the slopes of the solver's energy in the angles of a layer are the components of the field that acts on the layer in the
simulation. -/
theorem C124_slopes (s : Solver ℝ) (hs : s.Sized) (hid : (s.layers.map (·.id)).Nodup) {H : CVec ℝ} {ls : List (_root_.Layer ℝ)}
    (h : SameStack s H ls) (hp : Passive ls) (x : Coord → ℝ) {i : Nat} {l : Layer ℝ} {c : _root_.Layer ℝ} (hl : s.layers[i]? = some l)
    (hc : ls[i]? = some c) :
    let θ := x (.theta l.id)
    let φ := x (.phi l.id)
    pd (s.energy H) (.theta l.id) x = -(c.Ms * c.thickness) * (fieldAt ls (pose s x) i c).dot (dirTheta θ φ) ∧
    pd (s.energy H) (.phi l.id) x = -(c.Ms * c.thickness) * (fieldAt ls (pose s x) i c).dot (dirPhi φ) * Real.sin θ := by
  intro θ φ
  obtain ⟨hi, rfl⟩ := List.getElem?_eq_some_iff.1 hl
  obtain ⟨hi', rfl⟩ := List.getElem?_eq_some_iff.1 hc
  have e1 : s.layerAt i = s.layers[i] := by simp [layerAt_eq, List.getD_eq_getElem?_getD, List.getElem?_eq_getElem hi]
  constructor
  · refine slope_pose s hs h hp x hi' _ _ ?_ ?_
    · simp only [pose, e1]
      simp only [Function.update_self, Function.update_of_ne (show Coord.phi s.layers[i].id ≠ Coord.theta s.layers[i].id by simp)]
      exact slope_theta _ _
    · intro k hk hne t
      have := id_ne hid hi (h.length ▸ hk) hne
      rw [e1] at this
      simp [pose, Function.update_of_ne, this]
  · rw [slope_pose s hs h hp x hi' (.phi s.layers[i].id) (smul (Real.sin θ) (dirPhi φ)) ?_ ?_]
    · simp only [smul, CVec.dot]
      ring
    · simp only [pose, e1]
      simp only [Function.update_self, Function.update_of_ne (show Coord.theta s.layers[i].id ≠ Coord.phi s.layers[i].id by simp)]
      exact slope_phi _ _
    · intro k hk hne t
      have := id_ne hid hi (h.length ▸ hk) hne
      rw [e1] at this
      simp [pose, Function.update_of_ne, this]

/-- The torque has the two tangent components of the field. -/
theorem torque_normSq (θ φ : ℝ) (F : CVec ℝ) : ((dir θ φ).cross F).normSq = F.dot (dirTheta θ φ) ^ 2 + F.dot (dirPhi φ) ^ 2 := by
  have h1 := Real.sin_sq_add_cos_sq θ
  have h2 := Real.sin_sq_add_cos_sq φ
  obtain ⟨a, b, d⟩ := F
  simp only [dir, dirTheta, dirPhi, CVec.cross, CVec.dot, CVec.normSq]
  generalize Real.sin θ = S at *
  generalize Real.cos θ = C at *
  generalize Real.sin φ = p at *
  generalize Real.cos φ = q at *
  linear_combination (a ^ 2 + b ^ 2 + d ^ 2) * (S ^ 2 * h2 + h1) -
    (a ^ 2 * (q ^ 2 * h1 + h2) + b ^ 2 * (p ^ 2 * h1 + h2) + d ^ 2 * h1 + 2 * a * b * p * q * h1)

theorem normSq_zero {a : CVec ℝ} (h : a.normSq = 0) : a = ⟨0, 0, 0⟩ := by
  obtain ⟨x, y, z⟩ := a
  simp only [CVec.normSq] at h
  have hx : x ^ 2 = 0 := by nlinarith [sq_nonneg x, sq_nonneg y, sq_nonneg z]
  have hy : y ^ 2 = 0 := by nlinarith [sq_nonneg x, sq_nonneg y, sq_nonneg z]
  have hz : z ^ 2 = 0 := by nlinarith [sq_nonneg x, sq_nonneg y, sq_nonneg z]
  simp only [CVec.mk.injEq]
  exact ⟨by simpa using hx, by simpa using hy, by simpa using hz⟩

theorem pose_eq {s : Solver ℝ} {x : Coord → ℝ} {i : Nat} {l : Layer ℝ} (hl : s.layers[i]? = some l) :
    pose s x i = dir (x (.theta l.id)) (x (.phi l.id)) := by
  obtain ⟨hi, rfl⟩ := List.getElem?_eq_some_iff.1 hl
  have e1 : s.layerAt i = s.layers[i] := by simp [layerAt_eq, List.getD_eq_getElem?_getD, List.getElem?_eq_getElem hi]
  rw [pose, e1]

/-- C124: the two models have the same equilibria. Away from the poles the energy of the solver is stationary in the angles of a layer
exactly when the field of the simulation has no torque on it. -/
theorem C124_equilibria (s : Solver ℝ) (hs : s.Sized) (hid : (s.layers.map (·.id)).Nodup) {H : CVec ℝ} {ls : List (_root_.Layer ℝ)}
    (h : SameStack s H ls) (hp : Passive ls) (x : Coord → ℝ) {i : Nat} {l : Layer ℝ} {c : _root_.Layer ℝ} (hl : s.layers[i]? = some l)
    (hc : ls[i]? = some c) (hθ : Real.sin (x (.theta l.id)) ≠ 0) :
    (pd (s.energy H) (.theta l.id) x = 0 ∧ pd (s.energy H) (.phi l.id) x = 0) ↔
      (pose s x i).cross (fieldAt ls (pose s x) i c) = ⟨0, 0, 0⟩ := by
  obtain ⟨h1, h2⟩ := C124_slopes s hs hid h hp x hl hc
  have hm := (hp.alone c (List.mem_of_getElem? hc)).moment
  have ht := torque_normSq (x (.theta l.id)) (x (.phi l.id)) (fieldAt ls (pose s x) i c)
  rw [← pose_eq hl] at ht
  rw [h1, h2]
  constructor
  · rintro ⟨e1, e2⟩
    have e1 : (fieldAt ls (pose s x) i c).dot (dirTheta (x (.theta l.id)) (x (.phi l.id))) = 0 := by
      rcases mul_eq_zero.1 e1 with e | e
      · linarith
      · exact e
    have e2 : (fieldAt ls (pose s x) i c).dot (dirPhi (x (.phi l.id))) = 0 := by
      rcases mul_eq_zero.1 e2 with e | e
      · rcases mul_eq_zero.1 e with e | e
        · linarith
        · exact e
      · exact absurd e hθ
    exact normSq_zero (by rw [ht, e1, e2]; ring)
  · intro e
    rw [e] at ht
    simp only [CVec.normSq] at ht
    have e1 : (fieldAt ls (pose s x) i c).dot (dirTheta (x (.theta l.id)) (x (.phi l.id))) = 0 := by nlinarith
    have e2 : (fieldAt ls (pose s x) i c).dot (dirPhi (x (.phi l.id))) = 0 := by nlinarith
    rw [e1, e2]
    simp

/-- C124: how far the energy of the solver is from stationary is at most the moment times the torque of the simulation, also at the
poles. -/
theorem C124_nearly (s : Solver ℝ) (hs : s.Sized) (hid : (s.layers.map (·.id)).Nodup) {H : CVec ℝ} {ls : List (_root_.Layer ℝ)}
    (h : SameStack s H ls) (hp : Passive ls) (x : Coord → ℝ) {i : Nat} {l : Layer ℝ} {c : _root_.Layer ℝ} (hl : s.layers[i]? = some l)
    (hc : ls[i]? = some c) :
    |pd (s.energy H) (.theta l.id) x| ≤ c.Ms * c.thickness * ((pose s x i).cross (fieldAt ls (pose s x) i c)).length ∧
    |pd (s.energy H) (.phi l.id) x| ≤ c.Ms * c.thickness * ((pose s x i).cross (fieldAt ls (pose s x) i c)).length := by
  obtain ⟨h1, h2⟩ := C124_slopes s hs hid h hp x hl hc
  have hm := (hp.alone c (List.mem_of_getElem? hc)).moment
  have ht := torque_normSq (x (.theta l.id)) (x (.phi l.id)) (fieldAt ls (pose s x) i c)
  rw [← pose_eq hl] at ht
  rw [h1, h2, CVec.length_eq, ht]
  generalize (fieldAt ls (pose s x) i c).dot (dirTheta (x (.theta l.id)) (x (.phi l.id))) = a
  generalize (fieldAt ls (pose s x) i c).dot (dirPhi (x (.phi l.id))) = b
  have ha : |a| ≤ Real.sqrt (a ^ 2 + b ^ 2) := Real.abs_le_sqrt (by nlinarith [sq_nonneg b])
  have hb : |b| ≤ Real.sqrt (a ^ 2 + b ^ 2) := Real.abs_le_sqrt (by nlinarith [sq_nonneg a])
  constructor
  · rw [abs_mul, abs_neg, abs_of_pos hm]
    exact mul_le_mul_of_nonneg_left ha hm.le
  · rw [abs_mul, abs_mul, abs_neg, abs_of_pos hm]
    calc _ ≤ c.Ms * c.thickness * |b| * 1 := mul_le_mul_of_nonneg_left (Real.abs_sin_le_one _) (by positivity)
      _ ≤ _ := by rw [mul_one]; exact mul_le_mul_of_nonneg_left hb hm.le

/-- C124: every direction of the layers has angles. -/
theorem C124_angles (s : Solver ℝ) (hid : (s.layers.map (·.id)).Nodup) (a : Nat → CVec ℝ)
    (hu : ∀ i < s.layers.length, (a i).length = 1) : ∃ x : Coord → ℝ, ∀ i < s.layers.length, pose s x i = a i := by
  have hv : ∀ v : CVec ℝ, v.length = 1 → ∃ θ φ : ℝ, dir θ φ = v := by
    rintro ⟨X, Y, Z⟩ hv
    rw [CVec.length_eq, Real.sqrt_eq_one] at hv
    simp only [CVec.normSq] at hv
    refine ⟨Real.arccos Z, Complex.arg ⟨X, Y⟩, ?_⟩
    have hsin : Real.sin (Real.arccos Z) = Real.sqrt (X ^ 2 + Y ^ 2) := by
      rw [Real.sin_arccos]; congr 1; linarith
    have hz : -1 ≤ Z ∧ Z ≤ 1 := abs_le.1 (abs_le_one_iff_mul_self_le_one.2 (by nlinarith [sq_nonneg X, sq_nonneg Y]))
    simp only [dir, hsin, Real.cos_arccos hz.1 hz.2]
    rw [(VectorObj.polar_arg X Y).1, (VectorObj.polar_arg X Y).2]
  choose! f g hfg using hv
  refine ⟨fun | .theta k => f (a (s.layers.findIdx fun l => l.id = k)) | .phi k => g (a (s.layers.findIdx fun l => l.id = k)), ?_⟩
  intro i hi
  have hf : (s.layers.findIdx fun l => l.id = s.layers[i].id) = i := by
    rw [List.findIdx_eq hi]
    refine ⟨by simp, fun k hk => ?_⟩
    have := id_ne hid hi (hk.trans hi) hk.ne
    simp only [layerAt_eq, List.getD_eq_getElem?_getD, List.getElem?_eq_getElem hi, List.getElem?_eq_getElem (hk.trans hi), Option.getD_some] at this
    simpa using this
  rw [pose_eq (List.getElem?_eq_getElem hi)]
  simp only [hf]
  exact hfg _ (hu i hi)

theorem fieldAt_congr {ls : List (_root_.Layer ℝ)} {a b : Nat → CVec ℝ} (h : ∀ i < ls.length, a i = b i) {i : Nat} (hi : i < ls.length)
    (c : _root_.Layer ℝ) : fieldAt ls a i c = fieldAt ls b i c := by
  have h1 : lower (fun k _ => a k) i 0 = lower (fun k _ => b k) i 0 := by
    unfold lower
    split
    · rfl
    · exact h _ (by omega)
  have h2 : upper ls.length (fun k _ => a k) i 0 = upper ls.length (fun k _ => b k) i 0 := by
    unfold upper
    split
    · exact h _ (by omega)
    · rfl
  rw [fieldAt, fieldAt, h i hi, h1, h2]

/-- C124: a stack that is simulated for long enough with small enough steps (whichever integrator is used) ends where the energy of the
solver is stationary, up to a given tolerance. -/
theorem C124_relaxed (s : Solver ℝ) (hs : s.Sized) (hid : (s.layers.map (·.id)).Nodup) {H : CVec ℝ} (j : Junction ℝ)
    (h : SameStack s H j.layers) (hp : Passive j.layers) (hu : ∀ l ∈ j.layers, l.mag.length = 1)
    (hq : ∀ l ∈ j.layers, ¬ Noisy l) (hsm : ∀ l ∈ j.layers, SmoothDrivers l) (mode : SolverMode) {i : Nat} {l : Layer ℝ}
    {c : _root_.Layer ℝ} (hl : s.layers[i]? = some l) (hc : j.layers[i]? = some c) (hd : 0 < c.damping) (ε : ℝ) (hε : 0 < ε) :
    ∃ S : ℝ, ∀ T : ℝ, ∃ r : ℝ, 0 < r ∧ ∀ (n : Nat) (dt : ℝ), 0 < dt → dt ≤ r → S ≤ n * dt → n * dt ≤ T →
      ∀ (we : Nat) (en : Bool) (k : Junction ℝ), LoopEnds j mode n dt we en k →
        ∀ x : Coord → ℝ, (∀ i < s.layers.length, pose s x i = mags k i) →
          |pd (s.energy H) (.theta l.id) x| ≤ ε ∧ |pd (s.energy H) (.phi l.id) x| ≤ ε := by
  have hm := (hp.alone c (List.mem_of_getElem? hc)).moment
  obtain ⟨S, hS⟩ := Junction.C123_simulated_settles j hp hu hq hsm mode hc hd (ε / (c.Ms * c.thickness)) (by positivity)
  refine ⟨S, fun T => ?_⟩
  obtain ⟨r, hr, hn⟩ := hS T
  refine ⟨r, hr, fun n dt hdt hdr hSn hnT we en k hk x hx => ?_⟩
  obtain ⟨hi, -⟩ := List.getElem?_eq_some_iff.1 hc
  have hb := hn n dt hdt hdr hSn hnT we en k hk
  obtain ⟨b1, b2⟩ := C124_nearly s hs hid h hp x hl hc
  have hx' : ∀ i < j.layers.length, pose s x i = mags k i := fun i hi => hx i (h.length ▸ hi)
  rw [fieldAt_congr hx' hi, hx' i hi] at b1 b2
  have e : c.Ms * c.thickness * ((mags k i).cross (fieldAt j.layers (mags k) i c)).length ≤ ε := by
    calc _ ≤ c.Ms * c.thickness * (ε / (c.Ms * c.thickness)) := mul_le_mul_of_nonneg_left hb hm.le
      _ = ε := mul_div_cancel₀ _ hm.ne'
  exact ⟨b1.trans e, b2.trans e⟩

theorem pd_perThickness (s : Solver ℝ) (H : CVec ℝ) (l : Layer ℝ) (c : Coord) (x : Coord → ℝ) :
    pd (s.perThickness H l) c x = pd (s.energy H) c x / l.thickness := by
  simp only [pd, Solver.perThickness, deriv_div_const]

theorem cross_theta (θ φ : ℝ) (k : CVec ℝ) : ((dir θ φ).cross k).dot (dirTheta θ φ) = -k.dot (dirPhi φ) := by
  simp only [dir, dirTheta, dirPhi, CVec.cross, CVec.dot]
  linear_combination (k.x * Real.sin φ - k.y * Real.cos φ) * Real.sin_sq_add_cos_sq θ

theorem cross_phi (θ φ : ℝ) (k : CVec ℝ) : ((dir θ φ).cross k).dot (dirPhi φ) = k.dot (dirTheta θ φ) := by
  simp only [dir, dirTheta, dirPhi, CVec.cross, CVec.dot]
  linear_combination (-k.z * Real.sin θ) * Real.sin_sq_add_cos_sq φ

theorem lin_dot (g α : ℝ) (a b w : CVec ℝ) :
    (smul g ((⟨0, 0, 0⟩ : CVec ℝ) - a - smul α b)).dot w = g * (-(a.dot w) - α * b.dot w) := by
  simp [smul, CVec.dot]
  ring

theorem speed_theta (θ φ g α : ℝ) (F : CVec ℝ) :
    (smul g ((⟨0, 0, 0⟩ : CVec ℝ) - (dir θ φ).cross F - smul α ((dir θ φ).cross ((dir θ φ).cross F)))).dot (dirTheta θ φ) =
      g * (F.dot (dirPhi φ) + α * F.dot (dirTheta θ φ)) := by
  rw [lin_dot, cross_theta, cross_theta, cross_phi]; ring

theorem speed_phi (θ φ g α : ℝ) (F : CVec ℝ) :
    (smul g ((⟨0, 0, 0⟩ : CVec ℝ) - (dir θ φ).cross F - smul α ((dir θ φ).cross ((dir θ φ).cross F)))).dot (dirPhi φ) =
      g * (-F.dot (dirTheta θ φ) + α * F.dot (dirPhi φ)) := by
  rw [lin_dot, cross_phi, cross_phi, cross_theta]; ring

theorem speed_core {M S α a b L : ℝ} (hM : M ≠ 0) (hS : 0 < S) (ha : |a| ≤ L) (hb : |b| ≤ L) :
    |1.76e11 / (1 + α ^ 2) * (-(1 / (S + 1e-15)) * (-(12.566e-7 * M) * (b * S)) - α * (-(12.566e-7 * M) * a)) / M -
        1.76e11 * 12.566e-7 / 220880 * (220880 / (1 + α ^ 2) * (b + α * a))| ≤ 1.76e11 * 12.566e-7 * (1e-15 / S) * (2 * L) ∧
    |1.76e11 / (1 + α ^ 2) * (1 / (S + 1e-15) * (-(12.566e-7 * M) * a) - α * (-(12.566e-7 * M) * (b * S)) * (1 / (S + 1e-15)) ^ 2) / M * S -
        1.76e11 * 12.566e-7 / 220880 * (220880 / (1 + α ^ 2) * (-a + α * b))| ≤ 1.76e11 * 12.566e-7 * (1e-15 / S) * (2 * L) := by
  have he : (0 : ℝ) < 1e-15 := by norm_num
  generalize (1e-15 : ℝ) = e at *
  have hu : (0 : ℝ) < 12.566e-7 := by norm_num
  generalize (12.566e-7 : ℝ) = u at *
  have hg : (0 : ℝ) < 1.76e11 := by norm_num
  generalize (1.76e11 : ℝ) = g at *
  have hq : 0 < 1 + α ^ 2 := by positivity
  have hSe : 0 < S + e := by positivity
  have hρ0 : 0 ≤ e / (S + e) := by positivity
  have hρ1 : e / (S + e) ≤ 1 := by rw [div_le_one hSe]; linarith
  have hρS : e / (S + e) ≤ e / S := div_le_div_of_nonneg_left he.le hS (by linarith)
  have hL : 0 ≤ L := (abs_nonneg a).trans ha
  have hαq : |α| * 2 ≤ 1 + α ^ 2 := by nlinarith [sq_abs α, sq_nonneg (|α| - 1)]
  have big : ∀ w : ℝ, |w| ≤ 2 * L → ∀ z : ℝ, z = g * u * (e / (S + e)) * w → |z| ≤ g * u * (e / S) * (2 * L) := by
    rintro w hw z rfl
    rw [abs_mul, abs_of_nonneg (by positivity : 0 ≤ g * u * (e / (S + e)))]
    have : 0 ≤ e / S := by positivity
    gcongr
  constructor
  · refine big (-(b / (1 + α ^ 2))) ?_ _ (by field_simp; ring)
    rw [abs_neg, abs_div, abs_of_pos hq, div_le_iff₀ hq]
    nlinarith [sq_nonneg α]
  · refine big ((a - α * b * (2 - e / (S + e))) / (1 + α ^ 2)) ?_ _ (by field_simp; ring)
    rw [abs_div, abs_of_pos hq, div_le_iff₀ hq]
    have h2 : |2 - e / (S + e)| ≤ 2 := abs_le.2 ⟨by linarith, by linarith⟩
    calc |a - α * b * (2 - e / (S + e))| ≤ |a| + |α * b * (2 - e / (S + e))| := abs_sub _ _
      _ = |a| + |α| * |b| * |2 - e / (S + e)| := by rw [abs_mul, abs_mul]
      _ ≤ L + |α| * L * 2 := by gcongr
      _ ≤ 2 * L * (1 + α ^ 2) := by nlinarith [sq_nonneg α]

/-- C124: without spin torques the angles of the solver's equation of motion turn as the simulated magnetisation does, faster by the
ratio 1.00127… of the gyromagnetic constants of the two parts, and up to the regularisation `1e-15` of the sine. -/
theorem C124_speed (s : Solver ℝ) (hs : s.Sized) (hid : (s.layers.map (·.id)).Nodup) {H : CVec ℝ} {ls : List (_root_.Layer ℝ)}
    (h : SameStack s H ls) (hp : Passive ls) (x : Coord → ℝ) {i : Nat} {l : Layer ℝ} {c : _root_.Layer ℝ} (hl : s.layers[i]? = some l)
    (hc : ls[i]? = some c) (d : Dyn ℝ) (hpar : d.torquePar = 0) (hperp : d.torquePerp = 0) (hα : d.alpha = c.damping)
    (hθ : 0 < Real.sin (x (.theta l.id))) :
    let θ := x (.theta l.id)
    let φ := x (.phi l.id)
    let κ : ℝ := 1.76e11 * 12.566e-7 / 220880
    let v := motion c 0 (pose s x i) (lower (fun k _ => pose s x k) i 0) (upper ls.length (fun k _ => pose s x k) i 0)
    let r := l.rhs d (s.perThickness H l) 0 1 x
    let e := 1.76e11 * 12.566e-7 * (1e-15 / Real.sin θ) * (2 * ((pose s x i).cross (fieldAt ls (pose s x) i c)).length)
    |r.1 - κ * v.dot (dirTheta θ φ)| ≤ e ∧ |r.2 * Real.sin θ - κ * v.dot (dirPhi φ)| ≤ e := by
  intro θ φ κ v r e
  obtain ⟨h1, h2⟩ := C124_slopes s hs hid h hp x hl hc
  have hal := hp.alone c (List.mem_of_getElem? hc)
  have hm := hal.moment
  have hsl := h.layer i l c hl hc
  have hd0 : l.thickness ≠ 0 := by
    rw [← hsl.thickness]; intro e; rw [e, mul_zero] at hm; exact lt_irrefl _ hm
  have hM0 : l.Ms ≠ 0 := by
    intro e
    have := hsl.ms
    rw [e, mul_zero] at this
    rw [this, zero_mul] at hm; exact lt_irrefl _ hm
  have hE : (EPS : ℝ) = 1e-15 := by norm_num [EPS]
  have hg : (gammaRad : ℝ) = 1.76e11 := by norm_num [gammaRad]
  have ht := torque_normSq θ φ (fieldAt ls (pose s x) i c)
  have hpe : pose s x i = dir θ φ := pose_eq hl
  set F := fieldAt ls (pose s x) i c with hF
  have hv1 : v.dot (dirTheta θ φ) = 220880 / (1 + c.damping ^ 2) * (F.dot (dirPhi φ) + c.damping * F.dot (dirTheta θ φ)) := by
    have : v = smul (220880 / (1 + c.damping ^ 2)) ((⟨0, 0, 0⟩ : CVec ℝ) - (dir θ φ).cross F - smul c.damping ((dir θ φ).cross ((dir θ φ).cross F))) := by
      simp only [v, motion, spinTorque, hal.noStt, hal.noSot, Bool.false_eq_true, if_false]
      rw [← hpe]; rfl
    rw [this]
    exact speed_theta _ _ _ _ _
  have hv2 : v.dot (dirPhi φ) = 220880 / (1 + c.damping ^ 2) * (-F.dot (dirTheta θ φ) + c.damping * F.dot (dirPhi φ)) := by
    have : v = smul (220880 / (1 + c.damping ^ 2)) ((⟨0, 0, 0⟩ : CVec ℝ) - (dir θ φ).cross F - smul c.damping ((dir θ φ).cross ((dir θ φ).cross F))) := by
      simp only [v, motion, spinTorque, hal.noStt, hal.noSot, Bool.false_eq_true, if_false]
      rw [← hpe]; rfl
    rw [this]
    exact speed_phi _ _ _ _ _
  have q1 : pd (s.perThickness H l) (.theta l.id) x = -(12.566e-7 * l.Ms) * F.dot (dirTheta θ φ) := by
    rw [pd_perThickness, h1, hsl.ms, hsl.thickness]; field_simp; rfl
  have q2 : pd (s.perThickness H l) (.phi l.id) x = -(12.566e-7 * l.Ms) * (F.dot (dirPhi φ) * Real.sin θ) := by
    rw [pd_perThickness, h2, hsl.ms, hsl.thickness]; field_simp; rfl
  rw [← hpe] at ht
  have hle : ((pose s x i).cross F).length = Real.sqrt (F.dot (dirTheta θ φ) ^ 2 + F.dot (dirPhi φ) ^ 2) := by
    rw [CVec.length_eq, ht]
  have hr : r = l.rhs d (s.perThickness H l) 0 1 x := rfl
  have ha : |F.dot (dirTheta θ φ)| ≤ ((pose s x i).cross F).length := by
    rw [hle]; exact Real.abs_le_sqrt (by nlinarith [sq_nonneg (F.dot (dirPhi φ))])
  have hb : |F.dot (dirPhi φ)| ≤ ((pose s x i).cross F).length := by
    rw [hle]; exact Real.abs_le_sqrt (by nlinarith [sq_nonneg (F.dot (dirTheta θ φ))])
  rw [hv1, hv2]
  have hr1 : r.1 = 1.76e11 / (1 + c.damping ^ 2) * (-(1 / (Real.sin θ + 1e-15)) * pd (s.perThickness H l) (.phi l.id) x -
      c.damping * pd (s.perThickness H l) (.theta l.id) x) / l.Ms := by
    simp only [hr, Layer.rhs, Layer.torque, hpar, hperp, hE, hg, hα]
    simp
    rfl
  have hr2 : r.2 = 1.76e11 / (1 + c.damping ^ 2) * (1 / (Real.sin θ + 1e-15) * pd (s.perThickness H l) (.theta l.id) x -
      c.damping * pd (s.perThickness H l) (.phi l.id) x * (1 / (Real.sin θ + 1e-15)) ^ 2) / l.Ms := by
    simp only [hr, Layer.rhs, Layer.torque, hpar, hperp, hE, hg, hα]
    simp
    rfl
  rw [hr1, hr2, q1, q2]
  exact speed_core hM0 hθ ha hb

/-! ## A stack of two layers -/

/-- the two coupled layers of `Junction.coolJ` as layers of the solver -/
noncomputable def coolFilm (id : Int) (t N : ℝ) : Layer ℝ := ⟨id, t, ⟨0, 0, 0⟩, 1, 1 / 12.566e-7, ⟨0, 0, 0⟩, ⟨0, 0, N⟩, none⟩

noncomputable def coolSolver : Solver ℝ :=
  ⟨[coolFilm 0 1 (12.566 / 12.57), coolFilm 1 2 0], [3], [-2], none, [⟨0, 0, 0⟩], none⟩

theorem cool_sized : coolSolver.Sized := ⟨rfl, rfl, rfl⟩

theorem cool_ids : (coolSolver.layers.map (·.id)).Nodup := by simp [coolSolver, coolFilm]

theorem cool_fieldA : staticField Junction.coolA = (⟨1, 0, 0⟩ : CVec ℝ) + ⟨0, 0, 0⟩ := by
  apply CVec.ext <;>
    simp [staticField, Junction.coolA, plainOf, _root_.Layer.demo, AxialDriver.value, AxialDriver.null, AxialDriver.ofVec,
      ScalarDriver.value, ScalarDriver.null, ScalarDriver.constantDriver]

theorem cool_fieldB : staticField Junction.coolB = (⟨1, 0, 0⟩ : CVec ℝ) + ⟨0, 0, 0⟩ := by
  apply CVec.ext <;>
    simp [staticField, Junction.coolB, plainOf, _root_.Layer.demo, AxialDriver.value, AxialDriver.null, AxialDriver.ofVec,
      ScalarDriver.value, ScalarDriver.null, ScalarDriver.constantDriver]

theorem cool_same : SameStack coolSolver ⟨1, 0, 0⟩ Junction.coolJ.layers := by
  refine ⟨rfl, ?_, ?_, ?_, by simp [coolSolver], rfl⟩
  · intro i l c hl hc
    match i, hl, hc with
    | 0, hl, hc =>
      obtain rfl : coolFilm 0 1 (12.566 / 12.57) = l := by simpa [coolSolver] using hl
      obtain rfl : Junction.coolA = c := by simpa [Junction.coolJ] using hc
      refine ⟨?_, rfl, ?_, fun m => ?_, ?_, by simp [Junction.coolA, plainOf, _root_.Layer.demo, Tensor.zero, CVec.zero]⟩
      · norm_num [Junction.coolA, plainOf, _root_.Layer.demo, coolFilm]
      · exact cool_fieldA
      · simp [Junction.coolA, plainOf, _root_.Layer.demo, coolFilm, ScalarDriver.value, ScalarDriver.constantDriver, CVec.dot]
      · simp [Junction.coolA, coolFilm]
    | 1, hl, hc =>
      obtain rfl : coolFilm 1 2 0 = l := by simpa [coolSolver] using hl
      obtain rfl : Junction.coolB = c := by simpa [Junction.coolJ] using hc
      refine ⟨?_, rfl, ?_, fun m => ?_, ?_, by simp [Junction.coolB, plainOf, _root_.Layer.demo, Tensor.zero, CVec.zero]⟩
      · norm_num [Junction.coolB, plainOf, _root_.Layer.demo, coolFilm]
      · exact cool_fieldB
      · simp [Junction.coolB, plainOf, _root_.Layer.demo, coolFilm, ScalarDriver.value, ScalarDriver.constantDriver, CVec.dot]
      · simp [Junction.coolB, plainOf, _root_.Layer.demo, coolFilm, Tensor.zero, CVec.zero]
    | i + 2, hl, hc => simp [coolSolver] at hl
  · intro i c hi hc
    match i, hi, hc with
    | 0, hi, hc =>
      obtain rfl : Junction.coolA = c := by simpa [Junction.coolJ] using hc
      simp [Junction.coolA, coolSolver, ScalarDriver.value, ScalarDriver.constantDriver]
    | i + 1, hi, hc => simp [Junction.coolJ] at hi
  · intro i c hi hc
    match i, hi, hc with
    | 0, hi, hc =>
      obtain rfl : Junction.coolA = c := by simpa [Junction.coolJ] using hc
      simp [Junction.coolA, coolSolver, ScalarDriver.value, ScalarDriver.constantDriver]
    | i + 1, hi, hc => simp [Junction.coolJ] at hi

/-- The energies of the two models of the stack agree in every position. -/
example (x : Coord → ℝ) : coolSolver.energy ⟨1, 0, 0⟩ x = stackEnergy Junction.coolJ.layers (pose coolSolver x) :=
  C124_energy coolSolver cool_sized cool_same x

/-- Where the slopes of the solver's energy vanish the simulated stack has no torque. -/
example (x : Coord → ℝ) (h : Real.sin (x (.theta 0)) ≠ 0) :=
  C124_equilibria coolSolver cool_sized cool_ids cool_same Junction.cool_passive x (i := 0) rfl rfl h

/-- The simulated stack ends, with every integrator, near a stationary point of the solver's energy. -/
example (mode : SolverMode) (ε : ℝ) (hε : 0 < ε) :=
  C124_relaxed coolSolver cool_sized cool_ids Junction.coolJ cool_same Junction.cool_passive Junction.cool_unit Junction.cool_quiet
    Junction.cool_smooth mode (i := 0) rfl rfl (by norm_num [Junction.coolA]) ε hε

/-- The angles turn as the simulated magnetisation does. -/
example (x : Coord → ℝ) (h : 0 < Real.sin (x (.theta 0))) :=
  C124_speed coolSolver cool_sized cool_ids cool_same Junction.cool_passive x (i := 0) rfl rfl ⟨1 / 10, 0, 0⟩ rfl rfl
    (by norm_num [Junction.coolA]) h

/-- C124 without the factor: the two parts have different values of `μ₀`, so a layer that is given the same demagnetisation in both has
different energies. -/
theorem C124_constants_refuted : ¬ ∀ (l : Layer ℝ) (H : CVec ℝ) (c : _root_.Layer ℝ), c.Ms = 12.566e-7 * l.Ms → c.thickness = l.thickness →
    staticField c = H + l.Hdmi →
    (∀ m : CVec ℝ, c.anisotropyDriver.value 0 * c.anis.dot m ^ 2 =
      l.Ks * m.z ^ 2 + l.Kv.mag * (m.x * Real.cos l.Kv.phi + m.y * Real.sin l.Kv.phi) ^ 2) →
    c.demagTensor = ⟨⟨l.Ndemag.x, 0, 0⟩, ⟨0, l.Ndemag.y, 0⟩, ⟨0, 0, l.Ndemag.z⟩⟩ →
    ∀ x : Coord → ℝ, (⟨[l], [], [], none, [], none⟩ : Solver ℝ).energy H x =
      stackEnergy [c] fun _ => dir (x (.theta l.id)) (x (.phi l.id)) := by
  intro h
  have h1 := h (coolFilm 0 1 1) ⟨1, 0, 0⟩ Junction.coolA (by norm_num [Junction.coolA, plainOf, _root_.Layer.demo, coolFilm]) rfl
    cool_fieldA
    (fun m => by simp [Junction.coolA, plainOf, _root_.Layer.demo, coolFilm, ScalarDriver.value, ScalarDriver.constantDriver, CVec.dot])
    (by simp [Junction.coolA, coolFilm]) (fun _ => 0)
  rw [C78_energy _ ⟨rfl, rfl, rfl⟩ (by simp)] at h1
  have hm : (mu0 : ℝ) = 12.566e-7 := by norm_num [mu0]
  have hz : (staticField Junction.coolA).z = 0 := by rw [cool_fieldA]; simp
  have hx : ∀ a, stackEnergy [Junction.coolA] a = layerEnergy Junction.coolA (a 0) ⟨0, 0, 0⟩ := fun a => by simp [stackEnergy]
  rw [hx] at h1
  simp only [List.map_cons, List.map_nil, List.sum_cons, List.sum_nil, List.length_cons, List.length_nil, layerEnergy, density, hm] at h1
  generalize staticField Junction.coolA = F at *
  simp [coolFilm, Junction.coolA, plainOf, _root_.Layer.demo, vec, Spec.unit, dir, dotProduct, Fin.sum_univ_three, CVec.dot, tensorField,
    ScalarDriver.value, ScalarDriver.constantDriver, Tensor.zero, hz] at h1
  norm_num at h1

end SB
