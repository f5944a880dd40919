import Verif.Props.Convergence
import Mathlib.Analysis.Calculus.MeanValue
import Mathlib.Algebra.BigOperators.Fin

set_option linter.unusedSectionVars false

/-!
# C123: a stack that is left alone relaxes

Specification: the energy (per area) of a stack in constant fields, and what it means that a stack is left alone: no spin torques, constant
drivers, couplings that are the same seen from both sides. The equation of motion is `Spec.Motion`, to whose solutions runs converge
(C111).
-/

namespace Spec
open Layer

/-- The constant field on a layer. -/
noncomputable def staticField (l : Layer ℝ) : CVec ℝ :=
  l.externalFieldDriver.value 0 + l.HoeDriver.value 0 + l.HdmiDriver.value 0 + l.HreservedDriver.value 0

/-- Energy per area of a layer and of its coupling to the layer above: field, uniaxial anisotropy, demagnetisation, stray field,
bilinear and biquadratic exchange. -/
noncomputable def layerEnergy (l : Layer ℝ) (m u : CVec ℝ) : ℝ :=
  l.Ms * l.thickness * (1 / 2 * m.dot (tensorField l.demagTensor l.Ms m) + m.dot (tensorField l.dipoleTop l.Ms u)
    - (staticField l).dot m) - l.thickness * l.anisotropyDriver.value 0 * l.anis.dot m ^ 2
    - l.IECDriverTop.value 0 * m.dot u - l.IECQuadDriverTop.value 0 * m.dot u ^ 2

/-- Energy per area of a stack. -/
noncomputable def stackEnergy (ls : List (Layer ℝ)) (m : Nat → CVec ℝ) : ℝ :=
  ∑ i : Fin ls.length, layerEnergy ls[i] (m i) (if i.1 + 1 < ls.length then m (i + 1) else ⟨0, 0, 0⟩)

/-- The driver does not change. -/
def Still (d : ScalarDriver ℝ) : Prop := ∀ t, d.value t = d.value 0
def StillAxes (d : AxialDriver ℝ) : Prop := ∀ t, d.value t = d.value 0

/-- A layer without spin torques, in constant fields, without interlayer DMI. -/
structure Alone (l : Layer ℝ) : Prop where
  noStt : l.includeSTT = false
  noSot : l.includeSOT = false
  damping : 0 ≤ l.damping
  moment : 0 < l.Ms * l.thickness
  demag : ∀ a b : CVec ℝ, a.dot (tensorField l.demagTensor l.Ms b) = b.dot (tensorField l.demagTensor l.Ms a)
  anisotropy : Still l.anisotropyDriver
  iecTop : Still l.IECDriverTop
  iecBottom : Still l.IECDriverBottom
  quadTop : Still l.IECQuadDriverTop
  quadBottom : Still l.IECQuadDriverBottom
  external : StillAxes l.externalFieldDriver
  oersted : StillAxes l.HoeDriver
  dmi : StillAxes l.HdmiDriver
  reserved : StillAxes l.HreservedDriver
  idmiTop : ∀ t, l.IDMIDriverTop.value t = ⟨0, 0, 0⟩
  idmiBottom : ∀ t, l.IDMIDriverBottom.value t = ⟨0, 0, 0⟩

/-- The coupling of two neighbours is the same seen from below and from above. -/
structure Mutual (lo up : Layer ℝ) : Prop where
  iec : lo.IECDriverTop.value 0 = up.IECDriverBottom.value 0
  quad : lo.IECQuadDriverTop.value 0 = up.IECQuadDriverBottom.value 0
  dipole : ∀ a b : CVec ℝ, lo.Ms * lo.thickness * a.dot (tensorField lo.dipoleTop lo.Ms b) =
    up.Ms * up.thickness * b.dot (tensorField up.dipoleBottom up.Ms a)

/-- A stack that is left alone. -/
structure Passive (ls : List (Layer ℝ)) : Prop where
  alone : ∀ l ∈ ls, Alone l
  pairs : ∀ (i : Nat) (lo up : Layer ℝ), ls[i]? = some lo → ls[i + 1]? = some up → Mutual lo up

/-- The power a layer dissipates, per area: `γ α/(1+α²) Ms d |m × H|²`. -/
noncomputable def loss (l : Layer ℝ) (m H : CVec ℝ) : ℝ :=
  220880 * l.damping / (1 + l.damping ^ 2) * (l.Ms * l.thickness) * (m.cross H).normSq

/-- The power the stack dissipates at a time. -/
noncomputable def stackLoss (ls : List (Layer ℝ)) (m : Nat → ℝ → CVec ℝ) (t : ℝ) : ℝ :=
  ∑ i : Fin ls.length, loss ls[i] (m i t) (field ls[i] t (m i t) (lower m i t) (upper ls.length m i t))

end Spec

namespace Layer
open Spec

theorem slope_dot {a b : ℝ → CVec ℝ} {v w : CVec ℝ} {t : ℝ} (ha : Slope a v t) (hb : Slope b w t) :
    HasDerivAt (fun s => (a s).dot (b s)) (v.dot (b t) + (a t).dot w) t := by
  have := ((ha.1.mul hb.1).add (ha.2.1.mul hb.2.1)).add (ha.2.2.mul hb.2.2)
  refine this.congr_deriv ?_
  simp only [CVec.dot]
  ring

theorem slope_const (a : CVec ℝ) (t : ℝ) : Slope (fun _ => a) ⟨0, 0, 0⟩ t :=
  ⟨hasDerivAt_const t _, hasDerivAt_const t _, hasDerivAt_const t _⟩

theorem slope_tensor {a : ℝ → CVec ℝ} {v : CVec ℝ} {t : ℝ} (h : Slope a v t) (N : Tensor ℝ) (Ms : ℝ) :
    Slope (fun s => tensorField N Ms (a s)) (tensorField N Ms v) t := by
  obtain ⟨h1, h2, h3⟩ := h
  have row : ∀ r : CVec ℝ, HasDerivAt (fun s => Ms / (1257 / 10 ^ 9) * (r.x * (a s).x + r.y * (a s).y + r.z * (a s).z))
      (Ms / (1257 / 10 ^ 9) * (r.x * v.x + r.y * v.y + r.z * v.z)) t := fun r =>
    (((h1.const_mul r.x).add (h2.const_mul r.y)).add (h3.const_mul r.z)).const_mul _
  exact ⟨row N.r0, row N.r1, row N.r2⟩

/-- The field of a layer that is left alone, without the part from below. -/
noncomputable def ownField (l : Layer ℝ) (m u : CVec ℝ) : CVec ℝ :=
  let f (get : CVec ℝ → ℝ) : ℝ := get (staticField l) + get (anisField l.anis l.Ms (l.anisotropyDriver.value 0) m)
    + get (exchangeField l.Ms l.thickness (l.IECDriverTop.value 0) (l.IECQuadDriverTop.value 0) m u)
    - get (tensorField l.demagTensor l.Ms m) - get (tensorField l.dipoleTop l.Ms u)
  ⟨f CVec.x, f CVec.y, f CVec.z⟩

/-- The part from below. -/
noncomputable def belowField (l : Layer ℝ) (m b : CVec ℝ) : CVec ℝ :=
  let f (get : CVec ℝ → ℝ) : ℝ := get (exchangeField l.Ms l.thickness (l.IECDriverBottom.value 0) (l.IECQuadDriverBottom.value 0) m b)
    - get (tensorField l.dipoleBottom l.Ms b)
  ⟨f CVec.x, f CVec.y, f CVec.z⟩

theorem idmi_none (Ms d : ℝ) (c : CVec ℝ) : idmiField Ms d ⟨0, 0, 0⟩ c = ⟨0, 0, 0⟩ := by simp [idmiField, smul]

theorem field_alone {l : Layer ℝ} (h : Alone l) (t : ℝ) (m b a : CVec ℝ) : field l t m b a = ownField l m a + belowField l m b := by
  apply CVec.ext <;>
  · simp only [field, heffSpec, ownField, belowField, staticField, h.external t, h.oersted t, h.dmi t, h.reserved t, h.anisotropy t, h.iecTop t,
      h.iecBottom t, h.quadTop t, h.quadBottom t, h.idmiTop t, h.idmiBottom t, idmi_none, CVec.add_x, CVec.add_y, CVec.add_z]
    ring

/-- The slope of a layer's energy: the field times the motion of the layer, and what the motion of the neighbour adds. -/
theorem slope_energy {l : Layer ℝ} (h : Alone l) {m u : ℝ → CVec ℝ} {v w : CVec ℝ} {t : ℝ} (hm : Slope m v t) (hu : Slope u w t) :
    HasDerivAt (fun s => layerEnergy l (m s) (u s)) (-(l.Ms * l.thickness) * (ownField l (m t) (u t)).dot v
      + (l.Ms * l.thickness * (m t).dot (tensorField l.dipoleTop l.Ms w) - l.IECDriverTop.value 0 * (m t).dot w
        - 2 * l.IECQuadDriverTop.value 0 * (m t).dot (u t) * (m t).dot w)) t := by
  have d1 := (slope_dot hm (slope_tensor hm l.demagTensor l.Ms)).const_mul (1 / 2)
  have d2 := slope_dot hm (slope_tensor hu l.dipoleTop l.Ms)
  have d3 := slope_dot (slope_const (staticField l) t) hm
  have d4 := (slope_dot (slope_const l.anis t) hm).pow 2
  have d5 := slope_dot hm hu
  have d6 := d5.pow 2
  have all := ((((d1.add d2).sub d3).const_mul (l.Ms * l.thickness)).sub
    (d4.const_mul (l.thickness * l.anisotropyDriver.value 0))).sub (d5.const_mul (l.IECDriverTop.value 0)) |>.sub
    (d6.const_mul (l.IECQuadDriverTop.value 0))
  refine all.congr_deriv ?_
  have hs := h.demag v (m t)
  have h0 : l.Ms * l.thickness ≠ 0 := h.moment.ne'
  have hM : l.Ms ≠ 0 := left_ne_zero_of_mul h0
  have hd : l.thickness ≠ 0 := right_ne_zero_of_mul h0
  have hown : (l.Ms * l.thickness) * (ownField l (m t) (u t)).dot v = l.Ms * l.thickness * ((staticField l).dot v
      - v.dot (tensorField l.demagTensor l.Ms (m t)) - v.dot (tensorField l.dipoleTop l.Ms (u t)))
      + 2 * l.thickness * l.anisotropyDriver.value 0 * l.anis.dot (m t) * l.anis.dot v
      + (l.IECDriverTop.value 0 + 2 * l.IECQuadDriverTop.value 0 * (m t).dot (u t)) * v.dot (u t) := by
    simp only [ownField, anisField, exchangeField, smul, CVec.dot]
    field_simp
    ring
  have z1 : (⟨0, 0, 0⟩ : CVec ℝ).dot (m t) = 0 := by simp [CVec.dot]
  rw [neg_mul, hown, z1, hs]
  push_cast
  ring

theorem below_none (l : Layer ℝ) (m : CVec ℝ) : belowField l m ⟨0, 0, 0⟩ = ⟨0, 0, 0⟩ := by
  simp [belowField, exchangeField, tensorField, smul]

/-- What the motion of the upper neighbour adds is the field of the lower on the upper. -/
theorem below_power {lo up : Layer ℝ} (h : Mutual lo up) (h0 : up.Ms * up.thickness ≠ 0) (m u w : CVec ℝ) :
    lo.Ms * lo.thickness * m.dot (tensorField lo.dipoleTop lo.Ms w) - lo.IECDriverTop.value 0 * m.dot w
      - 2 * lo.IECQuadDriverTop.value 0 * m.dot u * m.dot w = -(up.Ms * up.thickness) * (belowField up u m).dot w := by
  have hM : up.Ms ≠ 0 := left_ne_zero_of_mul h0
  have hd : up.thickness ≠ 0 := right_ne_zero_of_mul h0
  have key : (up.Ms * up.thickness) * (belowField up u m).dot w = (up.IECDriverBottom.value 0
      + 2 * up.IECQuadDriverBottom.value 0 * m.dot u) * m.dot w
      - up.Ms * up.thickness * w.dot (tensorField up.dipoleBottom up.Ms m) := by
    simp only [belowField, exchangeField, smul, CVec.dot]
    field_simp
    ring
  rw [neg_mul, key, h.dipole, h.iec, h.quad]
  ring

theorem field_dot_motion {l : Layer ℝ} (h : Alone l) (t : ℝ) (m b a : CVec ℝ) :
    l.Ms * l.thickness * (field l t m b a).dot (motion l t m b a) = loss l m (field l t m b a) := by
  have h1 : (1 : ℝ) + l.damping ^ 2 ≠ 0 := by positivity
  simp only [motion, spinTorque, h.noStt, h.noSot, loss, Bool.false_eq_true, if_false]
  generalize field l t m b a = H
  simp [smul, CVec.dot, CVec.cross, CVec.normSq]
  field_simp
  ring

theorem sum_shift : ∀ {n : Nat} (X Y : Fin n → ℝ), (∀ (i : Fin n) (h : i.1 + 1 < n), X i = Y ⟨i.1 + 1, h⟩) →
    (∀ i : Fin n, ¬ i.1 + 1 < n → X i = 0) → (∀ i : Fin n, i.1 = 0 → Y i = 0) → ∑ i, X i = ∑ i, Y i
  | 0, _, _, _, _, _ => by simp
  | n + 1, X, Y, h, hX, hY => by
    rw [Fin.sum_univ_castSucc, Fin.sum_univ_succ, hX (Fin.last n) (by simp), hY 0 rfl, add_zero, zero_add]
    exact Finset.sum_congr rfl fun i _ => h i.castSucc (by simp)

end Layer

namespace Junction
open Spec Layer

/-- The slope of the energy along any curves: the fields times the velocities. -/
theorem stack_slope {ls : List (Layer ℝ)} (hp : Passive ls) {m : Nat → ℝ → CVec ℝ} {v : Fin ls.length → CVec ℝ} {t : ℝ}
    (hv : ∀ i : Fin ls.length, Slope (m i) (v i) t) :
    HasDerivAt (fun s => stackEnergy ls fun i => m i s) (-∑ i : Fin ls.length, ls[i].Ms * ls[i].thickness *
      (field ls[i] t (m i t) (lower m i t) (upper ls.length m i t)).dot (v i)) t := by
  have hget : ∀ i : Fin ls.length, ls[i.1]? = some ls[i] := fun i => by simp
  have hal : ∀ i : Fin ls.length, Alone ls[i] := fun i => hp.alone _ (List.getElem_mem _)
  let w : Fin ls.length → CVec ℝ := fun i => if h : i.1 + 1 < ls.length then v ⟨i.1 + 1, h⟩ else ⟨0, 0, 0⟩
  have hw : ∀ i : Fin ls.length, Slope (upper ls.length m i) (w i) t := by
    intro i
    by_cases h : i.1 + 1 < ls.length
    · have : upper ls.length m i = m (i.1 + 1) := by funext s; simp [upper, h]
      simp only [this, w, h, dif_pos]
      exact hv ⟨i.1 + 1, h⟩
    · have : upper ls.length m i = fun _ => ⟨0, 0, 0⟩ := by funext s; simp [upper, h]
      simp only [this, w, h, dif_neg, not_false_iff]
      exact slope_const _ _
  have hd := HasDerivAt.fun_sum (u := Finset.univ) fun i _ => slope_energy (hal i) (hv i) (hw i)
  refine hd.congr_deriv ?_
  rw [Finset.sum_add_distrib, sum_shift (fun i => ls[i].Ms * ls[i].thickness * (m i t).dot (tensorField ls[i].dipoleTop ls[i].Ms (w i))
      - ls[i].IECDriverTop.value 0 * (m i t).dot (w i)
      - 2 * ls[i].IECQuadDriverTop.value 0 * (m i t).dot (upper ls.length m i t) * (m i t).dot (w i)) (fun i => -(ls[i].Ms * ls[i].thickness) * (belowField ls[i] (m i t) (lower m i t)).dot (v i)),
    ← Finset.sum_add_distrib, ← Finset.sum_neg_distrib]
  · refine Finset.sum_congr rfl fun i _ => ?_
    rw [field_alone (hal i), CVec.add_dot]
    ring
  · intro i h
    have hu : upper ls.length m i t = m (i.1 + 1) t := by simp [upper, h]
    have hl : lower m (i.1 + 1) t = m i t := by simp [lower]
    simp only [w, h, dif_pos, hu, hl]
    exact below_power (hp.pairs i _ _ (hget i) (hget ⟨i.1 + 1, h⟩)) (hal ⟨i.1 + 1, h⟩).moment.ne' _ _ _
  · intro i h
    simp only [w, h, dif_neg, not_false_iff]
    simp [tensorField, CVec.dot]
  · intro i h
    have hl : lower m i t = ⟨0, 0, 0⟩ := by simp [lower, h]
    rw [hl, below_none]
    simp [CVec.dot]

/-- C123: along a solution of the equations of motion the energy of a stack that is left alone falls at the rate at which it is
dissipated, `Σ γ α/(1+α²) Ms d |m × H|²`; the precession and the couplings exchange energy but neither add nor remove any. -/
theorem C123_rate {ls : List (Layer ℝ)} (hp : Passive ls) {m : Nat → ℝ → CVec ℝ} {I : Set ℝ} (hm : Motion ls m I) {t : ℝ} (ht : t ∈ I) :
    HasDerivAt (fun s => stackEnergy ls fun i => m i s) (-stackLoss ls m t) t := by
  refine (stack_slope hp fun i => hm i ls[i] (by simp) t ht).congr_deriv ?_
  rw [stackLoss]
  exact congrArg _ (Finset.sum_congr rfl fun i _ => field_dot_motion (hp.alone _ (List.getElem_mem _)) _ _ _ _)

theorem loss_nonneg {l : Layer ℝ} (h : Alone l) (m H : CVec ℝ) : 0 ≤ loss l m H := by
  have h1 := h.damping
  have h2 := h.moment
  have h3 : 0 ≤ (m.cross H).normSq := by simp only [CVec.normSq]; positivity
  unfold loss
  positivity

theorem stackLoss_nonneg {ls : List (Layer ℝ)} (hp : Passive ls) (m : Nat → ℝ → CVec ℝ) (t : ℝ) : 0 ≤ stackLoss ls m t :=
  Finset.sum_nonneg fun _ _ => loss_nonneg (hp.alone _ (List.getElem_mem _)) _ _

/-- C123: the energy of a stack that is left alone never rises. -/
theorem C123_decreases {ls : List (Layer ℝ)} (hp : Passive ls) {m : Nat → ℝ → CVec ℝ} {lo hi : ℝ} (hm : Motion ls m (Set.Ioo lo hi)) :
    AntitoneOn (fun t => stackEnergy ls fun i => m i t) (Set.Ioo lo hi) := by
  refine antitoneOn_of_deriv_nonpos (convex_Ioo lo hi) ?_ ?_ ?_
  · exact fun t ht => (C123_rate hp hm ht).continuousAt.continuousWithinAt
  · rw [interior_Ioo]
    exact fun t ht => (C123_rate hp hm ht).differentiableAt.differentiableWithinAt
  · rw [interior_Ioo]
    intro t ht
    rw [(C123_rate hp hm ht).deriv]
    exact neg_nonpos.2 (stackLoss_nonneg hp m t)

/-- C123: without damping the energy is conserved. -/
theorem C123_conserved {ls : List (Layer ℝ)} (hp : Passive ls) (h0 : ∀ l ∈ ls, l.damping = 0) {m : Nat → ℝ → CVec ℝ} {lo hi : ℝ}
    (hm : Motion ls m (Set.Ioo lo hi)) {s t : ℝ} (hs : s ∈ Set.Ioo lo hi) (ht : t ∈ Set.Ioo lo hi) :
    stackEnergy ls (fun i => m i t) = stackEnergy ls fun i => m i s := by
  have hz : ∀ t, stackLoss ls m t = 0 := fun t => Finset.sum_eq_zero fun i _ => by
    simp [loss, h0 _ (List.getElem_mem i.2)]
  have hmono : MonotoneOn (fun t => stackEnergy ls fun i => m i t) (Set.Ioo lo hi) := by
    refine monotoneOn_of_deriv_nonneg (convex_Ioo lo hi) ?_ ?_ ?_
    · exact fun t ht => (C123_rate hp hm ht).continuousAt.continuousWithinAt
    · rw [interior_Ioo]
      exact fun t ht => (C123_rate hp hm ht).differentiableAt.differentiableWithinAt
    · rw [interior_Ioo]
      intro t ht
      rw [(C123_rate hp hm ht).deriv, hz, neg_zero]
  rcases le_total s t with h | h
  · exact le_antisymm (C123_decreases hp hm hs ht h) (hmono hs ht h)
  · exact le_antisymm (hmono ht hs h) (C123_decreases hp hm ht hs h)

end Junction

/-! ### Bounds -/

namespace Relax
open Spec Layer

/-- Components of the vectors below `n` are at most `2`. -/
def Bd (n : Nat) (a : Nat → CVec ℝ) : Prop := ∀ i < n, |(a i).x| ≤ 2 ∧ |(a i).y| ≤ 2 ∧ |(a i).z| ≤ 2

/-- Components of the vectors below `n` differ by at most `e`. -/
def Cl (n : Nat) (a b : Nat → CVec ℝ) (e : ℝ) : Prop :=
  ∀ i < n, |(a i).x - (b i).x| ≤ e ∧ |(a i).y - (b i).y| ≤ e ∧ |(a i).z - (b i).z| ≤ e

/-- Bounded and Lipschitz on bounded vectors. -/
def Tame (n : Nat) (f : (Nat → CVec ℝ) → ℝ) : Prop :=
  ∃ C, 0 ≤ C ∧ (∀ a, Bd n a → |f a| ≤ C) ∧ ∀ a b e, Bd n a → Bd n b → 0 ≤ e → Cl n a b e → |f a - f b| ≤ C * e

variable {n : Nat} {f g : (Nat → CVec ℝ) → ℝ}

theorem Tame.const (c : ℝ) : Tame n fun _ => c :=
  ⟨|c|, abs_nonneg c, fun _ _ => le_rfl, fun _ _ e _ _ he _ => by simpa using mul_nonneg (abs_nonneg c) he⟩

theorem Tame.add (hf : Tame n f) (hg : Tame n g) : Tame n fun a => f a + g a := by
  obtain ⟨C, hC, h1, h2⟩ := hf
  obtain ⟨D, hD, k1, k2⟩ := hg
  refine ⟨C + D, add_nonneg hC hD, fun a ha => (abs_add_le _ _).trans (add_le_add (h1 a ha) (k1 a ha)), fun a b e ha hb he h => ?_⟩
  have : f a + g a - (f b + g b) = (f a - f b) + (g a - g b) := by ring
  rw [this, add_mul]
  exact (abs_add_le _ _).trans (add_le_add (h2 a b e ha hb he h) (k2 a b e ha hb he h))

theorem Tame.mul (hf : Tame n f) (hg : Tame n g) : Tame n fun a => f a * g a := by
  obtain ⟨C, hC, h1, h2⟩ := hf
  obtain ⟨D, hD, k1, k2⟩ := hg
  refine ⟨2 * (C * D), by positivity, fun a ha => ?_, fun a b e ha hb he h => ?_⟩
  · rw [abs_mul]
    have := mul_le_mul (h1 a ha) (k1 a ha) (abs_nonneg _) hC
    nlinarith [mul_nonneg hC hD]
  · have : f a * g a - f b * g b = (f a - f b) * g a + f b * (g a - g b) := by ring
    rw [this]
    refine (abs_add_le _ _).trans ?_
    rw [abs_mul, abs_mul]
    have p1 := mul_le_mul (h2 a b e ha hb he h) (k1 a ha) (abs_nonneg _) (by positivity)
    have p2 := mul_le_mul (h1 b hb) (k2 a b e ha hb he h) (abs_nonneg _) hC
    calc _ ≤ C * e * D + C * (D * e) := add_le_add p1 p2
      _ = _ := by ring

theorem Tame.neg (hf : Tame n f) : Tame n fun a => -f a := by
  simpa using (Tame.const (n := n) (-1)).mul hf

theorem Tame.sub (hf : Tame n f) (hg : Tame n g) : Tame n fun a => f a - g a := by
  simpa [sub_eq_add_neg] using hf.add hg.neg

theorem Tame.sum {ι : Type} (s : Finset ι) {F : ι → (Nat → CVec ℝ) → ℝ} (h : ∀ i, Tame n (F i)) : Tame n fun a => ∑ i ∈ s, F i a := by
  classical
  induction s using Finset.induction_on with
  | empty => simpa using Tame.const (n := n) 0
  | insert i s hi ih => simpa [Finset.sum_insert hi] using (h i).add ih

/-- The same for each component. -/
structure VTame (n : Nat) (v : (Nat → CVec ℝ) → CVec ℝ) : Prop where
  x : Tame n fun a => (v a).x
  y : Tame n fun a => (v a).y
  z : Tame n fun a => (v a).z

variable {v w : (Nat → CVec ℝ) → CVec ℝ}

theorem VTame.const (c : CVec ℝ) : VTame n fun _ => c := ⟨.const _, .const _, .const _⟩

theorem VTame.var {i : Nat} (h : i < n) : VTame n fun a => a i :=
  ⟨⟨2, by norm_num, fun _ ha => (ha i h).1, fun _ _ _ _ _ he hc => (hc i h).1.trans (by linarith)⟩,
   ⟨2, by norm_num, fun _ ha => (ha i h).2.1, fun _ _ _ _ _ he hc => (hc i h).2.1.trans (by linarith)⟩,
   ⟨2, by norm_num, fun _ ha => (ha i h).2.2, fun _ _ _ _ _ he hc => (hc i h).2.2.trans (by linarith)⟩⟩

theorem VTame.dot (hv : VTame n v) (hw : VTame n w) : Tame n fun a => (v a).dot (w a) :=
  ((hv.x.mul hw.x).add (hv.y.mul hw.y)).add (hv.z.mul hw.z)

theorem VTame.cross (hv : VTame n v) (hw : VTame n w) : VTame n fun a => (v a).cross (w a) :=
  ⟨(hv.y.mul hw.z).sub (hv.z.mul hw.y), (hv.z.mul hw.x).sub (hv.x.mul hw.z), (hv.x.mul hw.y).sub (hv.y.mul hw.x)⟩

theorem VTame.add (hv : VTame n v) (hw : VTame n w) : VTame n fun a => v a + w a :=
  ⟨hv.x.add hw.x, hv.y.add hw.y, hv.z.add hw.z⟩

theorem VTame.sub (hv : VTame n v) (hw : VTame n w) : VTame n fun a => v a - w a :=
  ⟨hv.x.sub hw.x, hv.y.sub hw.y, hv.z.sub hw.z⟩

theorem VTame.smul (hf : Tame n f) (hv : VTame n v) : VTame n fun a => Spec.smul (f a) (v a) :=
  ⟨hf.mul hv.x, hf.mul hv.y, hf.mul hv.z⟩

theorem VTame.tensor (hv : VTame n v) (N : Tensor ℝ) (Ms : ℝ) : VTame n fun a => tensorField N Ms (v a) := by
  have row : ∀ r : CVec ℝ, Tame n fun a => Ms / (1257 / 10 ^ 9) * (r.x * (v a).x + r.y * (v a).y + r.z * (v a).z) := fun r =>
    (Tame.const _).mul ((((Tame.const _).mul hv.x).add ((Tame.const _).mul hv.y)).add ((Tame.const _).mul hv.z))
  exact ⟨row N.r0, row N.r1, row N.r2⟩

theorem VTame.own {l : Layer ℝ} (hv : VTame n v) (hw : VTame n w) : VTame n fun a => ownField l (v a) (w a) := by
  have h1 : VTame n fun a => anisField l.anis l.Ms (l.anisotropyDriver.value 0) (v a) :=
    .smul ((Tame.const _).mul ((VTame.const l.anis).dot hv)) (.const _)
  have h2 : VTame n fun a => exchangeField l.Ms l.thickness (l.IECDriverTop.value 0) (l.IECQuadDriverTop.value 0) (v a) (w a) := by
    simp only [exchangeField, div_eq_mul_inv]
    exact .smul (((Tame.const _).add ((Tame.const _).mul (hw.dot hv))).mul (.const _)) hw
  have h3 := hv.tensor l.demagTensor l.Ms
  have h4 := hw.tensor l.dipoleTop l.Ms
  exact ⟨(((Tame.const _).add h1.x).add h2.x).sub h3.x |>.sub h4.x, (((Tame.const _).add h1.y).add h2.y).sub h3.y |>.sub h4.y,
    (((Tame.const _).add h1.z).add h2.z).sub h3.z |>.sub h4.z⟩

theorem VTame.below {l : Layer ℝ} (hv : VTame n v) (hw : VTame n w) : VTame n fun a => belowField l (v a) (w a) := by
  have h2 : VTame n fun a => exchangeField l.Ms l.thickness (l.IECDriverBottom.value 0) (l.IECQuadDriverBottom.value 0) (v a) (w a) := by
    simp only [exchangeField, div_eq_mul_inv]
    exact .smul (((Tame.const _).add ((Tame.const _).mul (hw.dot hv))).mul (.const _)) hw
  have h4 := hw.tensor l.dipoleBottom l.Ms
  exact ⟨h2.x.sub h4.x, h2.y.sub h4.y, h2.z.sub h4.z⟩

theorem VTame.field {l : Layer ℝ} (h : Alone l) (t : ℝ) {b u : (Nat → CVec ℝ) → CVec ℝ} (hv : VTame n v) (hb : VTame n b)
    (hu : VTame n u) : VTame n fun a => Spec.field l t (v a) (b a) (u a) := by
  simp only [field_alone h]
  exact (VTame.own hv hu).add (VTame.below hv hb)

theorem VTame.motion {l : Layer ℝ} (h : Alone l) (t : ℝ) {b u : (Nat → CVec ℝ) → CVec ℝ} (hv : VTame n v) (hb : VTame n b)
    (hu : VTame n u) : VTame n fun a => Spec.motion l t (v a) (b a) (u a) := by
  have hH := VTame.field h t hv hb hu
  simp only [Spec.motion, spinTorque, h.noStt, h.noSot, Bool.false_eq_true, if_false]
  exact .smul (.const _) (((VTame.const _).sub (hv.cross hH)).sub (.smul (.const _) (hv.cross (hv.cross hH))))

/-- The neighbours. -/
def lo (a : Nat → CVec ℝ) (i : Nat) : CVec ℝ := if i = 0 then ⟨0, 0, 0⟩ else a (i - 1)
def hi (n : Nat) (a : Nat → CVec ℝ) (i : Nat) : CVec ℝ := if i + 1 < n then a (i + 1) else ⟨0, 0, 0⟩

theorem VTame.lo {i : Nat} (h : i < n) : VTame n fun a => Relax.lo a i := by
  unfold Relax.lo
  split
  · exact .const _
  · exact .var (by omega)

theorem VTame.hi (i : Nat) : VTame n fun a => Relax.hi n a i := by
  unfold Relax.hi
  split
  · exact .var (by omega)
  · exact .const _

theorem energy_tame (ls : List (Layer ℝ)) : Tame ls.length (stackEnergy ls) := by
  refine Tame.sum _ fun i => ?_
  have hv : VTame ls.length fun a => a i.1 := .var i.2
  have hu : VTame ls.length fun a => Relax.hi ls.length a i.1 := .hi _
  have hd := hv.dot hu
  have ha := (VTame.const (n := ls.length) ls[i].anis).dot hv
  have := ((((Tame.const (ls[i].Ms * ls[i].thickness)).mul ((((Tame.const (1 / 2)).mul (hv.dot (hv.tensor ls[i].demagTensor ls[i].Ms))).add
    (hv.dot (hu.tensor ls[i].dipoleTop ls[i].Ms))).sub ((VTame.const (staticField ls[i])).dot hv))).sub
    ((Tame.const (ls[i].thickness * ls[i].anisotropyDriver.value 0)).mul (ha.mul ha))).sub
    ((Tame.const (ls[i].IECDriverTop.value 0)).mul hd)).sub ((Tame.const (ls[i].IECQuadDriverTop.value 0)).mul (hd.mul hd))
  simpa only [layerEnergy, pow_two, Relax.hi] using this

theorem loss_tame {ls : List (Layer ℝ)} (hp : Passive ls) (i : Fin ls.length) :
    Tame ls.length fun a => loss ls[i] (a i) (field ls[i] 0 (a i) (lo a i) (hi ls.length a i)) := by
  have hv : VTame ls.length fun a => a i.1 := .var i.2
  have hc := hv.cross (VTame.field (hp.alone _ (List.getElem_mem i.2)) 0 hv (.lo i.2) (.hi i.1))
  simp only [loss, CVec.normSq_eq_dot]
  exact (Tame.const _).mul (hc.dot hc)

theorem length_comp {v : CVec ℝ} {e : ℝ} (h : v.length ≤ e) : |v.x| ≤ e ∧ |v.y| ≤ e ∧ |v.z| ≤ e := by
  have hl : v.length ^ 2 = v.x ^ 2 + v.y ^ 2 + v.z ^ 2 := by
    rw [CVec.length_eq, Real.sq_sqrt (by simp only [CVec.normSq]; positivity)]
    simp only [CVec.normSq]
  have h0 : 0 ≤ v.length := by rw [CVec.length_eq]; exact Real.sqrt_nonneg _
  refine ⟨(abs_le_of_sq_le_sq ?_ h0).trans h, (abs_le_of_sq_le_sq ?_ h0).trans h, (abs_le_of_sq_le_sq ?_ h0).trans h⟩ <;>
    rw [hl] <;> nlinarith [sq_nonneg v.x, sq_nonneg v.y, sq_nonneg v.z]

end Relax

namespace Spec

/-- The magnetisations of a junction. -/
def mags (k : Junction ℝ) (i : Nat) : CVec ℝ := ((k.layers.map Layer.mag)[i]?).getD ⟨0, 0, 0⟩

end Spec

namespace Junction
open Spec Layer Relax

theorem track_unit {j : Junction ℝ} {m : Nat → ℝ → CVec ℝ} {T : ℝ} (h : Track j m T) {t : ℝ} (ht : t ∈ Set.Icc 0 T) {i : Nat}
    {l : Layer ℝ} (hi : j.layers[i]? = some l) : (m i t).length = 1 := by
  obtain ⟨lo, hi', hlo, hhi, hm⟩ := h.solves
  rw [Order.length_const (l := l) (c := m i) (b := lower m i) (a := upper j.layers.length m i) (lo := lo) (hi := hi')
    ⟨hlo, by linarith [ht.1, ht.2]⟩ (fun s hs => hm i l hi s hs) t ⟨by linarith [ht.1], by linarith [ht.2]⟩, h.start i l hi]
  exact h.unit l (List.mem_of_getElem? hi)

theorem near_tame {n : Nat} {f : (Nat → CVec ℝ) → ℝ} (hf : Tame n f) : ∃ K : ℝ, 0 ≤ K ∧ ∀ (a b : Nat → CVec ℝ) (e : ℝ),
    (∀ i < n, (b i).length = 1) → 0 ≤ e → e ≤ 1 → (∀ i < n, (a i - b i).length ≤ e) → |f a - f b| ≤ K * e := by
  obtain ⟨K, hK, -, h⟩ := hf
  refine ⟨K, hK, fun a b e hb he h1 hc => h a b e ?_ ?_ he ?_⟩
  · intro i hi
    have p := length_comp (hb i hi).le
    have q := length_comp (hc i hi)
    simp only [CVec.sub_x, CVec.sub_y, CVec.sub_z] at q
    have tri : ∀ x y : ℝ, |x - y| ≤ e → |y| ≤ 1 → |x| ≤ 2 := by
      intro x y h2 h3
      rw [abs_le] at *
      constructor <;> linarith [h2.1, h2.2, h3.1, h3.2]
    exact ⟨tri _ _ q.1 p.1, tri _ _ q.2.1 p.2.1, tri _ _ q.2.2 p.2.2⟩
  · intro i hi
    have p := length_comp (hb i hi).le
    exact ⟨p.1.trans one_le_two, p.2.1.trans one_le_two, p.2.2.trans one_le_two⟩
  · intro i hi
    simpa using length_comp (hc i hi)

theorem loop_length {j k : Junction ℝ} (hq : ∀ l ∈ j.layers, ¬ Noisy l) {mode : SolverMode} {n we : Nat} {dt : ℝ} {en : Bool}
    (h : LoopEnds j mode n dt we en k) : k.layers.length = j.layers.length := by
  obtain ⟨s, j1, hg, hl⟩ := h
  rw [solver_quiet j hq] at hg
  simp only [Out.ok, Out.mk.injEq, Except.ok.injEq] at hg
  obtain ⟨rfl, rfl⟩ := hg
  obtain ⟨e, he, hle⟩ := runLoop_evolve _ dt we en hl rfl
  rw [hle]
  exact evolve_length he

theorem mags_get {k : Junction ℝ} {i : Nat} (h : i < k.layers.length) : mags k i = k.layers[i].mag := by
  simp [mags, h]

/-- C123: what is simulated, for every solver that converges (C111): up to `C dt^p`, with the order `p` of the solver, the energy of a
stack that is left alone is never above that of the start, after any number of steps within `[0, T]`; without damping it is that of the
start. -/
theorem C123_simulated {j : Junction ℝ} {m : Nat → ℝ → CVec ℝ} {T : ℝ} (h : Track j m T) (hp : Passive j.layers) {mode : SolverMode}
    {p : Nat} (h1 : 1 ≤ p) (hc : Converges j mode m T p) : ∃ C r : ℝ, 0 < r ∧ ∀ (n : Nat) (dt : ℝ), 0 < dt → dt ≤ r → n * dt ≤ T →
      ∀ (we : Nat) (en : Bool) (k : Junction ℝ), LoopEnds j mode n dt we en k →
        stackEnergy j.layers (mags k) ≤ stackEnergy j.layers (mags j) + C * dt ^ p ∧
        ((∀ l ∈ j.layers, l.damping = 0) → |stackEnergy j.layers (mags k) - stackEnergy j.layers (mags j)| ≤ C * dt ^ p) := by
  obtain ⟨C, r, hr, hn, -⟩ := hc
  obtain ⟨K, hK, hE⟩ := near_tame (energy_tame j.layers)
  have hpos : 0 < |C| + 1 := by positivity
  refine ⟨K * |C|, min r (min 1 (1 / (|C| + 1))), lt_min hr (lt_min one_pos (by positivity)), ?_⟩
  intro n dt hdt hdr hnT we en k hk
  have hlen := loop_length h.quiet hk
  have d1 : dt ≤ r := hdr.trans (min_le_left _ _)
  have d2 : dt ≤ 1 := hdr.trans ((min_le_right _ _).trans (min_le_left _ _))
  have d3 : dt ≤ 1 / (|C| + 1) := hdr.trans ((min_le_right _ _).trans (min_le_right _ _))
  have hpow : dt ^ p ≤ dt := by
    calc dt ^ p ≤ dt ^ 1 := pow_le_pow_of_le_one hdt.le d2 h1
      _ = dt := pow_one dt
  have e0 : 0 ≤ |C| * dt ^ p := by positivity
  have e1 : |C| * dt ^ p ≤ 1 := by
    rw [le_div_iff₀ hpos] at d3
    nlinarith [abs_nonneg C]
  have ht : (n * dt : ℝ) ∈ Set.Icc 0 T := ⟨by positivity, hnT⟩
  have h0 : (0 : ℝ) ∈ Set.Icc 0 T := ⟨le_rfl, ht.1.trans ht.2⟩
  have hnear := hn n dt hdt d1 hnT we en k hk
  have key := hE (mags k) (fun i => m i (n * dt)) (|C| * dt ^ p) (fun i hi => track_unit h ht (List.getElem?_eq_getElem hi)) e0 e1 (by
    intro i hi
    rw [mags_get (by rw [hlen]; exact hi)]
    exact (hnear i _ (List.getElem?_eq_getElem (by rw [hlen]; exact hi))).trans
      (mul_le_mul_of_nonneg_right (le_abs_self C) (by positivity)))
  have hstart : stackEnergy j.layers (mags j) = stackEnergy j.layers fun i => m i 0 := by
    refine Finset.sum_congr rfl fun i _ => ?_
    have e : ∀ i < j.layers.length, mags j i = m i 0 := fun i hi => by
      rw [mags_get hi, h.start i _ (List.getElem?_eq_getElem hi)]
    rw [e i i.2]
    by_cases hi : i.1 + 1 < j.layers.length
    · rw [if_pos hi, if_pos hi, e _ hi]
    · rw [if_neg hi, if_neg hi]
  obtain ⟨lo, hi, hlo, hhi, hm⟩ := h.solves
  have m0 : (0 : ℝ) ∈ Set.Ioo lo hi := ⟨hlo, by linarith [h0.2]⟩
  have mt : (n * dt : ℝ) ∈ Set.Ioo lo hi := ⟨by linarith [ht.1], by linarith⟩
  have hdec := C123_decreases hp hm m0 mt ht.1
  rw [hstart, mul_assoc]
  refine ⟨?_, fun hz => ?_⟩
  · have := (abs_le.1 key).2
    simp only at hdec
    linarith
  · rwa [← C123_conserved hp hz hm m0 mt]

/-- helper: a falling function that is bounded below, whose slope is Lipschitz, levels off -/
theorem barbalat {E D : ℝ → ℝ} {B K : ℝ} (hE : ∀ t, 0 < t → HasDerivAt E (-D t) t) (hD : ∀ t, 0 ≤ D t) (hB : ∀ t, 0 < t → B ≤ E t)
    (hK : 0 ≤ K) (hL : ∀ s t, 0 < s → s ≤ t → |D t - D s| ≤ K * (t - s)) : Filter.Tendsto D Filter.atTop (nhds 0) := by
  have anti : ∀ s t, 0 < s → s ≤ t → E t ≤ E s := by
    intro s t hs hst
    rcases hst.eq_or_lt with rfl | hlt
    · exact le_rfl
    obtain ⟨c, hc, he⟩ := exists_hasDerivAt_eq_slope E (fun t => -D t) hlt
      (fun x hx => (hE x (by linarith [hx.1])).continuousAt.continuousWithinAt) (fun x hx => hE x (by linarith [hx.1]))
    rw [eq_div_iff (by linarith)] at he
    nlinarith [hD c]
  rw [Metric.tendsto_atTop]
  intro ε hε
  set δ := ε / (2 * (K + 1)) with hδ
  have hδ0 : 0 < δ := by positivity
  have hKδ : K * δ ≤ ε / 2 := by
    rw [hδ, mul_div_assoc', div_le_div_iff₀ (by positivity) (by norm_num)]
    nlinarith
  have hne : (E '' Set.Ioi 0).Nonempty := ⟨_, 1, by simp, rfl⟩
  have hbd : BddBelow (E '' Set.Ioi 0) := ⟨B, by rintro _ ⟨t, ht, rfl⟩; exact hB t ht⟩
  obtain ⟨_, ⟨t0, ht0, rfl⟩, hlt⟩ := exists_lt_of_csInf_lt hne (b := sInf (E '' Set.Ioi 0) + δ * (ε / 2)) (by
    have : 0 < δ * (ε / 2) := by positivity
    linarith)
  refine ⟨t0, fun t ht => ?_⟩
  have htp : 0 < t := lt_of_lt_of_le ht0 ht
  rw [Real.dist_eq, sub_zero, abs_of_nonneg (hD t)]
  by_contra hge
  push Not at hge
  obtain ⟨c, hc, he⟩ := exists_hasDerivAt_eq_slope E (fun t => -D t) (show t < t + δ by linarith)
    (fun x hx => (hE x (by linarith [hx.1])).continuousAt.continuousWithinAt) (fun x hx => hE x (by linarith [hx.1]))
  rw [eq_div_iff (by linarith)] at he
  have hcd : ε / 2 ≤ D c := by
    have h1 := (abs_le.1 (hL t c htp hc.1.le)).1
    have h2 : K * (c - t) ≤ K * δ := mul_le_mul_of_nonneg_left (by linarith [hc.2]) hK
    linarith
  have h3 : sInf (E '' Set.Ioi 0) ≤ E (t + δ) := csInf_le hbd ⟨t + δ, by simp; linarith, rfl⟩
  have h4 := anti t0 t ht0 ht
  nlinarith

theorem loss_lipschitz {ls : List (Layer ℝ)} (hp : Passive ls) {m : Nat → ℝ → CVec ℝ} (hm : Motion ls m (Set.Ioi 0))
    (hu : ∀ i < ls.length, ∀ t, 0 < t → (m i t).length = 1) :
    ∃ K : ℝ, 0 ≤ K ∧ ∀ s t, 0 < s → s ≤ t → |stackLoss ls m t - stackLoss ls m s| ≤ K * (t - s) := by
  have hal : ∀ i : Fin ls.length, Alone ls[i] := fun i => hp.alone _ (List.getElem_mem _)
  have hG : Tame ls.length fun a => ∑ i : Fin ls.length, loss ls[i] (a i) (field ls[i] 0 (a i) (lo a i) (hi ls.length a i)) :=
    Tame.sum _ fun i => loss_tame hp i
  have hbd : ∀ t, 0 < t → Bd ls.length fun i => m i t := fun t ht i hi => by
    have p := length_comp (hu i hi t ht).le
    exact ⟨p.1.trans one_le_two, p.2.1.trans one_le_two, p.2.2.trans one_le_two⟩
  have hslow : ∀ i : Fin ls.length, ∃ V : ℝ, 0 ≤ V ∧ ∀ t, 0 < t →
      |(motion ls[i] t (m i t) (lower m i t) (upper ls.length m i t)).x| ≤ V ∧
      |(motion ls[i] t (m i t) (lower m i t) (upper ls.length m i t)).y| ≤ V ∧
      |(motion ls[i] t (m i t) (lower m i t) (upper ls.length m i t)).z| ≤ V := by
    intro i
    obtain ⟨⟨A, hA, a1, -⟩, ⟨B, hB, b1, -⟩, ⟨C, hC, c1, -⟩⟩ :=
      VTame.motion (hal i) 0 (VTame.var i.2) (VTame.lo i.2) (VTame.hi (n := ls.length) i.1)
    refine ⟨A + B + C, by positivity, fun t ht => ?_⟩
    have e : motion ls[i] t (m i t) (lower m i t) (upper ls.length m i t) =
        motion ls[i] 0 (m i t) (lo (fun i => m i t) i) (hi ls.length (fun i => m i t) i) := by
      simp only [motion, spinTorque, (hal i).noStt, (hal i).noSot, Bool.false_eq_true, if_false, field_alone (hal i)]
      rfl
    rw [e]
    exact ⟨(a1 _ (hbd t ht)).trans (by linarith), (b1 _ (hbd t ht)).trans (by linarith), (c1 _ (hbd t ht)).trans (by linarith)⟩
  choose V hV0 hV using hslow
  have hS0 : 0 ≤ ∑ i, V i := Finset.sum_nonneg fun i _ => hV0 i
  have hVS : ∀ i, V i ≤ ∑ i, V i := fun i => Finset.single_le_sum (f := V) (fun i _ => hV0 i) (Finset.mem_univ i)
  obtain ⟨C, hC, -, hl⟩ := hG
  refine ⟨C * ∑ i, V i, by positivity, fun s t hs hst => ?_⟩
  have hcl : Cl ls.length (fun i => m i t) (fun i => m i s) ((∑ i, V i) * (t - s)) := by
    intro i hi
    have hsl := fun x (hx : x ∈ Set.Icc s t) => hm i ls[i] (List.getElem?_eq_getElem hi) x (lt_of_lt_of_le hs hx.1)
    have hb := fun x (hx : x ∈ Set.Icc s t) => hV ⟨i, hi⟩ x (lt_of_lt_of_le hs hx.1)
    have bound : ∀ (f f' : ℝ → ℝ), (∀ x ∈ Set.Icc s t, HasDerivAt f (f' x) x) → (∀ x ∈ Set.Icc s t, |f' x| ≤ V ⟨i, hi⟩) →
        |f t - f s| ≤ (∑ i, V i) * (t - s) := by
      intro f f' h1 h2
      have := (convex_Icc s t).norm_image_sub_le_of_norm_hasDerivWithin_le (f := f) (f' := f') (C := V ⟨i, hi⟩)
        (fun x hx => (h1 x hx).hasDerivWithinAt) (fun x hx => h2 x hx) (Set.left_mem_Icc.2 hst) (Set.right_mem_Icc.2 hst)
      rw [Real.norm_eq_abs, Real.norm_eq_abs, abs_of_nonneg (sub_nonneg.2 hst)] at this
      exact this.trans (mul_le_mul_of_nonneg_right (hVS _) (sub_nonneg.2 hst))
    exact ⟨bound _ _ (fun x hx => (hsl x hx).1) fun x hx => (hb x hx).1,
      bound _ _ (fun x hx => (hsl x hx).2.1) fun x hx => (hb x hx).2.1,
      bound _ _ (fun x hx => (hsl x hx).2.2) fun x hx => (hb x hx).2.2⟩
  have key := hl _ _ _ (hbd t (lt_of_lt_of_le hs hst)) (hbd s hs) (mul_nonneg hS0 (sub_nonneg.2 hst)) hcl
  have e : ∀ t, stackLoss ls m t = ∑ i : Fin ls.length, loss ls[i] (m i t) (field ls[i] 0 (m i t) (lo (fun i => m i t) i)
      (hi ls.length (fun i => m i t) i)) := by
    intro t
    refine Finset.sum_congr rfl fun i _ => ?_
    rw [field_alone (hal i), field_alone (hal i)]
    rfl
  rw [e t, e s, mul_assoc]
  exact key

/-- C123: a stack that is left alone settles: as time passes, the torque of the field on every damped layer tends to zero. -/
theorem C123_settles {j : Junction ℝ} {m : Nat → ℝ → CVec ℝ} (h : ∀ T, 0 ≤ T → Track j m T) (hp : Passive j.layers) {i : Nat}
    {l : Layer ℝ} (hi : j.layers[i]? = some l) (hd : 0 < l.damping) :
    Filter.Tendsto (fun t => ((m i t).cross (field l t (m i t) (lower m i t) (upper j.layers.length m i t))).length) Filter.atTop
      (nhds 0) := by
  have hm : Motion j.layers m (Set.Ioi 0) := by
    intro i l hi t ht
    obtain ⟨lo, hi', hlo, hhi, hm⟩ := (h t (le_of_lt ht)).solves
    exact hm i l hi t ⟨lt_trans hlo ht, hhi⟩
  have hu : ∀ i < j.layers.length, ∀ t, 0 < t → (m i t).length = 1 := fun i hi t ht =>
    track_unit (h t ht.le) ⟨ht.le, le_rfl⟩ (List.getElem?_eq_getElem hi)
  obtain ⟨K, hK, hL⟩ := loss_lipschitz hp hm hu
  obtain ⟨B, hB, hb, -⟩ := energy_tame j.layers
  have hz := barbalat (E := fun s => stackEnergy j.layers fun i => m i s) (B := -B) (fun t ht => C123_rate hp hm ht)
    (stackLoss_nonneg hp m) (fun t ht => (abs_le.1 (hb _ fun i hi => by
      have p := length_comp (hu i hi t ht).le
      exact ⟨p.1.trans one_le_two, p.2.1.trans one_le_two, p.2.2.trans one_le_two⟩)).1) hK hL
  obtain ⟨hlt, rfl⟩ := List.getElem?_eq_some_iff.1 hi
  have hal := hp.alone _ (List.getElem_mem hlt)
  set c := 220880 * j.layers[i].damping / (1 + j.layers[i].damping ^ 2) * (j.layers[i].Ms * j.layers[i].thickness) with hc
  have hc0 : 0 < c := by
    have := hal.moment
    positivity
  have hsq : Filter.Tendsto (fun t => stackLoss j.layers m t / c) Filter.atTop (nhds 0) := by simpa using hz.div_const c
  have hrt : Filter.Tendsto (fun t => Real.sqrt (stackLoss j.layers m t / c)) Filter.atTop (nhds 0) := by
    have := (Real.continuous_sqrt.tendsto 0).comp hsq
    rw [Real.sqrt_zero] at this
    exact this
  refine squeeze_zero (fun t => ?_) (fun t => ?_) hrt
  · rw [CVec.length_eq]; exact Real.sqrt_nonneg _
  · rw [CVec.length_eq]
    refine Real.sqrt_le_sqrt ?_
    rw [le_div_iff₀ hc0]
    have := Finset.single_le_sum (f := fun i : Fin j.layers.length => loss j.layers[i] (m i t) (field j.layers[i] t (m i t) (lower m i t)
      (upper j.layers.length m i t))) (fun i _ => loss_nonneg (hp.alone _ (List.getElem_mem i.2)) _ _) (Finset.mem_univ ⟨i, hlt⟩)
    refine le_trans (le_of_eq ?_) this
    simp only [loss, hc, Fin.getElem_fin]
    ring

/-! ### One solution for all times -/

theorem track_mono {j : Junction ℝ} {m : Nat → ℝ → CVec ℝ} {S T : ℝ} (h : Track j m T) (hS : S ≤ T) : Track j m S where
  solves := by
    obtain ⟨lo, hi, hlo, hhi, hm⟩ := h.solves
    exact ⟨lo, hi, hlo, by linarith, hm⟩
  start := h.start
  unit := h.unit
  volume := h.volume
  quiet := h.quiet
  smooth := fun l hl t ht => h.smooth l hl t ⟨ht.1, ht.2.trans hS⟩
  noPole := fun i l hl t ht => h.noPole i l hl t ⟨ht.1, ht.2.trans hS⟩

theorem lower_congr {m m' : Nat → ℝ → CVec ℝ} {t : ℝ} {n i : Nat} (hi : i < n) (h : ∀ i < n, m i t = m' i t) :
    lower m i t = lower m' i t := by
  unfold lower
  split
  · rfl
  · exact h _ (by omega)

theorem upper_congr {m m' : Nat → ℝ → CVec ℝ} {t : ℝ} {n i : Nat} (h : ∀ i < n, m i t = m' i t) : upper n m i t = upper n m' i t := by
  unfold upper
  split
  · exact h _ (by omega)
  · rfl

theorem slope_congr {a b : ℝ → CVec ℝ} {v : CVec ℝ} {t : ℝ} (h : Slope a v t) (e : ∀ᶠ s in nhds t, b s = a s) : Slope b v t :=
  ⟨h.1.congr_of_eventuallyEq (e.mono fun _ h => congrArg CVec.x h), h.2.1.congr_of_eventuallyEq (e.mono fun _ h => congrArg CVec.y h),
    h.2.2.congr_of_eventuallyEq (e.mono fun _ h => congrArg CVec.z h)⟩

theorem track_glue {j : Junction ℝ} (h : ∀ T : ℝ, 0 ≤ T → ∃ m, Track j m T) : ∃ m, ∀ T, 0 ≤ T → Track j m T := by
  choose μ hμ using fun n : ℕ => h n n.cast_nonneg
  have agree : ∀ a b : ℕ, a ≤ b → ∀ i < j.layers.length, ∀ t ∈ Set.Icc (0 : ℝ) a, μ a i t = μ b i t := fun a b hab i hi t ht =>
    C111_unique j _ _ a (hμ a) (track_mono (hμ b) (by exact_mod_cast hab)) i hi t ht
  let m : Nat → ℝ → CVec ℝ := fun i t => μ (⌈t⌉₊ + 1) i t
  have pos : ∀ (b : ℕ) (t : ℝ), t ∈ Set.Icc (0 : ℝ) b → ∀ i < j.layers.length, m i t = μ b i t := by
    intro b t ht i hi
    show μ (⌈t⌉₊ + 1) i t = μ b i t
    rcases le_total (⌈t⌉₊ + 1) b with hb | hb
    · exact agree _ _ hb i hi t ⟨ht.1, by push_cast; linarith [Nat.le_ceil t]⟩
    · exact (agree _ _ hb i hi t ht).symm
  have neg : ∀ t : ℝ, t ≤ 1 → ∀ i < j.layers.length, m i t = μ 1 i t := by
    intro t ht i hi
    rcases le_total t 0 with h0 | h0
    · show μ (⌈t⌉₊ + 1) i t = μ 1 i t
      rw [Nat.ceil_eq_zero.2 h0]
    · exact pos 1 t ⟨h0, by simpa using ht⟩ i hi
  have zero : ∀ i < j.layers.length, m i 0 = μ 0 i 0 := fun i hi => pos 0 0 (by simp) i hi
  obtain ⟨lo, hi1, hlo, hhi, hm1⟩ := (hμ 1).solves
  have mot : Motion j.layers m (Set.Ioi lo) := by
    intro i l hi t ht
    have hil := (List.getElem?_eq_some_iff.1 hi).1
    by_cases h1 : t < 1
    · have hs := hm1 i l hi t ⟨ht, by simp at hhi; linarith⟩
      have e : ∀ i < j.layers.length, m i t = μ 1 i t := neg t h1.le
      rw [e i hil, lower_congr hil e, upper_congr e]
      exact slope_congr hs ((gt_mem_nhds h1).mono fun s hs => neg s (le_of_lt hs) i hil)
    · have h0 : 0 < t := by linarith
      have hb : t < (⌈t⌉₊ + 1 : ℕ) := by push_cast; linarith [Nat.le_ceil t]
      obtain ⟨lo', hi', hlo', hhi', hm'⟩ := (hμ (⌈t⌉₊ + 1)).solves
      have hs := hm' i l hi t ⟨by linarith, by linarith⟩
      have e : ∀ i < j.layers.length, m i t = μ (⌈t⌉₊ + 1) i t := fun _ _ => rfl
      rw [e i hil, lower_congr hil e, upper_congr e]
      refine slope_congr hs ?_
      filter_upwards [lt_mem_nhds h0, gt_mem_nhds hb] with s hs1 hs2
      exact pos _ s ⟨hs1.le, hs2.le⟩ i hil
  refine ⟨m, fun T hT => ⟨⟨lo, T + 1, hlo, by linarith, fun i l hi t ht => mot i l hi t ht.1⟩, ?_, (hμ 0).unit, (hμ 0).volume, (hμ 0).quiet,
    ?_, ?_⟩⟩
  · intro i l hi
    rw [zero i (List.getElem?_eq_some_iff.1 hi).1]
    exact (hμ 0).start i l hi
  · intro l hl t ht
    exact (hμ ⌈T⌉₊).smooth l hl t ⟨ht.1, ht.2.trans (Nat.le_ceil T)⟩
  · intro i l hi t ht
    have hil := (List.getElem?_eq_some_iff.1 hi).1
    have e := pos ⌈T⌉₊ t ⟨ht.1, ht.2.trans (Nat.le_ceil T)⟩
    rw [e i hil, lower_congr hil e, upper_congr e]
    exact (hμ ⌈T⌉₊).noPole i l hi t ⟨ht.1, ht.2.trans (Nat.le_ceil T)⟩

/-- C111. One solution serves all durations. -/
theorem C111_global (j : Junction ℝ) (hu : ∀ l ∈ j.layers, l.mag.length = 1) (hv : ∀ l ∈ j.layers, l.Ms * l.thickness ≠ 0)
    (hq : ∀ l ∈ j.layers, ¬ Noisy l) (hs : ∀ l ∈ j.layers, SmoothDrivers l) (hp : ∀ l ∈ j.layers, Poleless l) :
    ∃ m, ∀ T, 0 ≤ T → Track j m T :=
  track_glue fun T hT => C111_exists j T hT hu hv hq hs hp

/-- C123: what is simulated settles, with every solver: for every tolerance there is a time from which on, with small enough time
steps, the torque of the field on every damped layer stays below it. -/
theorem C123_simulated_settles (j : Junction ℝ) (hp : Passive j.layers) (hu : ∀ l ∈ j.layers, l.mag.length = 1)
    (hq : ∀ l ∈ j.layers, ¬ Noisy l) (hs : ∀ l ∈ j.layers, SmoothDrivers l) (mode : SolverMode) {i : Nat} {l : Layer ℝ}
    (hi : j.layers[i]? = some l) (hd : 0 < l.damping) (ε : ℝ) (hε : 0 < ε) : ∃ S : ℝ, ∀ T : ℝ, ∃ r : ℝ, 0 < r ∧ ∀ (n : Nat) (dt : ℝ),
      0 < dt → dt ≤ r → S ≤ n * dt → n * dt ≤ T → ∀ (we : Nat) (en : Bool) (k : Junction ℝ), LoopEnds j mode n dt we en k →
        ((mags k i).cross (field l 0 (mags k i) (lower (fun i _ => mags k i) i 0)
          (upper j.layers.length (fun i _ => mags k i) i 0))).length ≤ ε := by
  have hal := hp.alone l (List.mem_of_getElem? hi)
  obtain ⟨hil, -⟩ := List.getElem?_eq_some_iff.1 hi
  obtain ⟨m, hm⟩ := C111_global j hu (fun l hl => (hp.alone l hl).moment.ne') hq hs (fun l hl _ _ _ _ _ _ h => by
    rw [(hp.alone l hl).noStt] at h; cases h)
  obtain ⟨S, hS⟩ := Filter.eventually_atTop.1 ((C123_settles hm hp hi hd).eventually (gt_mem_nhds (half_pos hε)))
  have hv : VTame j.layers.length fun a => a i := .var hil
  have ht := hv.cross (VTame.field hal 0 hv (.lo hil) (.hi i))
  obtain ⟨K, hK, hKn⟩ := near_tame (ht.dot ht)
  refine ⟨S, fun T => ?_⟩
  by_cases hT : 0 ≤ T
  swap
  · refine ⟨1, one_pos, fun n dt hdt _ _ hn => absurd (le_trans (by positivity) hn) hT⟩
  obtain ⟨C, r, hr, hn, -⟩ := C111_all j m T (hm T hT) mode
  have hpos : 0 < |C| + 1 := by positivity
  have hpos2 : 0 < K * |C| + 1 := by positivity
  refine ⟨min r (min (1 / (|C| + 1)) (ε ^ 2 / 2 / (K * |C| + 1))), lt_min hr (lt_min (by positivity) (by positivity)), ?_⟩
  intro n dt hdt hdr hSn hnT we en k hk
  have hlen := loop_length hq hk
  have d1 : dt ≤ r := hdr.trans (min_le_left _ _)
  have d2 : dt ≤ 1 / (|C| + 1) := hdr.trans ((min_le_right _ _).trans (min_le_left _ _))
  have d3 : dt ≤ ε ^ 2 / 2 / (K * |C| + 1) := hdr.trans ((min_le_right _ _).trans (min_le_right _ _))
  rw [le_div_iff₀ hpos] at d2
  rw [le_div_iff₀ hpos2] at d3
  have e0 : 0 ≤ |C| * dt := by positivity
  have htT : (n * dt : ℝ) ∈ Set.Icc 0 T := ⟨by positivity, hnT⟩
  have key := hKn (mags k) (fun i => m i (n * dt)) (|C| * dt)
    (fun i hi => track_unit (hm T hT) htT (List.getElem?_eq_getElem hi)) e0 (by nlinarith) (by
      intro i hi
      rw [mags_get (by rw [hlen]; exact hi)]
      have := hn n dt hdt d1 hnT we en k hk i _ (List.getElem?_eq_getElem (by rw [hlen]; exact hi))
      rw [pow_one] at this
      exact this.trans (mul_le_mul_of_nonneg_right (le_abs_self C) hdt.le))
  have hq := hS (n * dt) hSn
  rw [field_alone hal, CVec.length_eq, Real.sqrt_lt' (by positivity), CVec.normSq_eq_dot] at hq
  rw [CVec.length_eq, Real.sqrt_le_left hε.le, CVec.normSq_eq_dot]
  simp only [field_alone hal] at key ⊢
  have k2 := (abs_le.1 key).2
  change _ - ((m i (n * dt)).cross (l.ownField (m i (n * dt)) (upper j.layers.length m i (n * dt)) + l.belowField (m i (n * dt))
    (lower m i (n * dt)))).dot ((m i (n * dt)).cross (l.ownField (m i (n * dt)) (upper j.layers.length m i (n * dt)) +
    l.belowField (m i (n * dt)) (lower m i (n * dt)))) ≤ _ at k2
  refine le_trans (sub_le_iff_le_add.1 k2) ?_
  nlinarith

/-! ### The hypotheses are met -/

/-- Constant drivers do not change. -/
theorem still_constant {d : ScalarDriver ℝ} (h : d.update = .constant) : Still d := by
  intro t
  simp [ScalarDriver.value, h]

theorem still_axes {d : AxialDriver ℝ} (h : d.dx.update = .constant ∧ d.dy.update = .constant ∧ d.dz.update = .constant) : StillAxes d := by
  intro t
  simp only [AxialDriver.value, still_constant h.1 t, still_constant h.2.1 t, still_constant h.2.2 t]

/-- two layers with shape anisotropy in a field, coupled by exchange of both kinds -/
noncomputable def coolA : Layer ℝ :=
  { plainOf Layer.demo with
    damping := 1 / 10, demagTensor := ⟨⟨0, 0, 0⟩, ⟨0, 0, 0⟩, ⟨0, 0, 1⟩⟩, mag := ⟨1, 0, 0⟩,
    IECDriverTop := .constantDriver 3, IECQuadDriverTop := .constantDriver (-2) }

noncomputable def coolB : Layer ℝ :=
  { plainOf Layer.demo with
    damping := 1 / 5, thickness := 2, mag := ⟨0, 1, 0⟩,
    IECDriverBottom := .constantDriver 3, IECQuadDriverBottom := .constantDriver (-2) }

noncomputable def coolJ : Junction ℝ := { demoJ with layers := [coolA, coolB] }

theorem cool_mem {l : Layer ℝ} (h : l ∈ coolJ.layers) : l = coolA ∨ l = coolB := by simpa [coolJ] using h

theorem cool_passive : Passive coolJ.layers := by
  have zero : ∀ t, (AxialDriver.null : AxialDriver ℝ).value t = ⟨0, 0, 0⟩ := by
    intro t; simp [AxialDriver.value, AxialDriver.null, ScalarDriver.value, ScalarDriver.null]
  have tz : ∀ (Ms : ℝ) (a b : CVec ℝ), a.dot (tensorField Tensor.zero Ms b) = 0 := by
    intro Ms a b; simp [tensorField, Tensor.zero, CVec.zero, CVec.dot]
  refine ⟨fun l hl => ?_, fun i lo up h1 h2 => ?_⟩
  · rcases cool_mem hl with rfl | rfl
    · refine ⟨rfl, rfl, by norm_num [coolA], by norm_num [coolA, plainOf, Layer.demo], ?_, still_constant rfl, still_constant rfl,
        still_constant rfl, still_constant rfl, still_constant rfl, still_axes ⟨rfl, rfl, rfl⟩, still_axes ⟨rfl, rfl, rfl⟩,
        still_axes ⟨rfl, rfl, rfl⟩, still_axes ⟨rfl, rfl, rfl⟩, zero, zero⟩
      intro a b
      simp [coolA, tensorField, CVec.dot]
      ring
    · refine ⟨rfl, rfl, by norm_num [coolB], by norm_num [coolB, plainOf, Layer.demo], ?_, still_constant rfl, still_constant rfl,
        still_constant rfl, still_constant rfl, still_constant rfl, still_axes ⟨rfl, rfl, rfl⟩, still_axes ⟨rfl, rfl, rfl⟩,
        still_axes ⟨rfl, rfl, rfl⟩, still_axes ⟨rfl, rfl, rfl⟩, zero, zero⟩
      intro a b
      rw [show coolB.demagTensor = Tensor.zero from rfl, tz, tz]
  · match i, h1, h2 with
    | 0, h1, h2 =>
      obtain rfl : coolA = lo := by simpa [coolJ] using h1
      obtain rfl : coolB = up := by simpa [coolJ] using h2
      refine ⟨rfl, rfl, fun a b => ?_⟩
      rw [show coolA.dipoleTop = Tensor.zero from rfl, show coolB.dipoleBottom = Tensor.zero from rfl, tz, tz, mul_zero, mul_zero]
    | 1, h1, h2 => simp [coolJ] at h2
    | i + 2, h1, h2 => simp [coolJ] at h1

theorem cool_unit : ∀ l ∈ coolJ.layers, l.mag.length = 1 := by
  intro l hl
  rcases cool_mem hl with rfl | rfl <;> simp [coolA, coolB, CVec.length_eq, CVec.normSq]

theorem cool_quiet : ∀ l ∈ coolJ.layers, ¬ Noisy l := by
  intro l hl
  rw [quiet_iff]
  rcases cool_mem hl with rfl | rfl <;> exact ⟨rfl, by simp [coolA, coolB, plainOf, Layer.demo]⟩

theorem cool_smooth : ∀ l ∈ coolJ.layers, SmoothDrivers l := by
  intro l hl
  have ax : SmoothAxes (AxialDriver.null : AxialDriver ℝ) := ⟨.inl rfl, .inl rfl, .inl rfl⟩
  rcases cool_mem hl with rfl | rfl <;>
    exact ⟨.inl rfl, .inl rfl, .inl rfl, .inl rfl, .inl rfl, .inl rfl, .inl rfl, .inl rfl, ax, ax, ax,
      ⟨.inl rfl, .inl rfl, .inl rfl⟩, ax, ax⟩

theorem cool_loss : loss coolA ⟨1, 0, 0⟩ (field coolA 0 ⟨1, 0, 0⟩ ⟨0, 0, 0⟩ ⟨0, 1, 0⟩) ≠ 0 := by
  have hy : (field coolA 0 ⟨1, 0, 0⟩ ⟨0, 0, 0⟩ ⟨0, 1, 0⟩).y = 3 := by
    simp [field, heffSpec, coolA, plainOf, Layer.demo, AxialDriver.value, AxialDriver.null, AxialDriver.ofVec, ScalarDriver.value,
      ScalarDriver.null, ScalarDriver.constantDriver, Tensor.zero, CVec.zero, anisField, exchangeField, idmiField, tensorField, smul]
  have hn : 9 ≤ ((⟨1, 0, 0⟩ : CVec ℝ).cross (field coolA 0 ⟨1, 0, 0⟩ ⟨0, 0, 0⟩ ⟨0, 1, 0⟩)).normSq := by
    simp only [CVec.cross, CVec.normSq, hy]
    nlinarith [sq_nonneg (field coolA 0 ⟨1, 0, 0⟩ ⟨0, 0, 0⟩ ⟨0, 1, 0⟩).z]
  unfold loss
  have h1 : coolA.damping = 1 / 10 := rfl
  have h2 : coolA.Ms = 1 := rfl
  have h3 : coolA.thickness = 1 := rfl
  rw [h1, h2, h3]
  have : 0 < ((⟨1, 0, 0⟩ : CVec ℝ).cross (field coolA 0 ⟨1, 0, 0⟩ ⟨0, 0, 0⟩ ⟨0, 1, 0⟩)).normSq := by linarith
  positivity

/-- All theorems of C123 apply to the two layers; what they say is not trivial, for the layers start away from equilibrium. -/
example : ∃ m, (∀ T, 0 ≤ T → Track coolJ m T) ∧ 0 < stackLoss coolJ.layers m 0 := by
  obtain ⟨m, hm⟩ := C111_global coolJ cool_unit (fun l hl => (cool_passive.alone l hl).moment.ne') cool_quiet cool_smooth
    (fun l hl _ _ _ _ _ _ h => by rw [(cool_passive.alone l hl).noStt] at h; cases h)
  refine ⟨m, hm, ?_⟩
  have h0 : m 0 0 = ⟨1, 0, 0⟩ := (hm 0 le_rfl).start 0 coolA rfl
  have h1 : m 1 0 = ⟨0, 1, 0⟩ := (hm 0 le_rfl).start 1 coolB rfl
  have pos := stackLoss_nonneg cool_passive m 0
  refine lt_of_le_of_ne pos fun e => ?_
  have hz := (Finset.sum_eq_zero_iff_of_nonneg fun i _ => loss_nonneg (cool_passive.alone _ (List.getElem_mem i.2)) _ _).1 e.symm
    (⟨0, by decide⟩ : Fin 2) (Finset.mem_univ _)
  refine cool_loss ?_
  have e0 : lower m 0 0 = ⟨0, 0, 0⟩ := rfl
  have e1 : upper coolJ.layers.length m 0 0 = m 1 0 := rfl
  change loss coolA (m 0 0) (field coolA 0 (m 0 0) (lower m 0 0) (upper coolJ.layers.length m 0 0)) = 0 at hz
  rwa [e0, e1, h0, h1] at hz

/-- Simulated with any solver the two layers end near an equilibrium. -/
example (mode : SolverMode) (ε : ℝ) (hε : 0 < ε) := C123_simulated_settles coolJ cool_passive cool_unit cool_quiet cool_smooth mode
  (i := 0) (l := coolA) rfl (by norm_num [coolA]) ε hε

end Junction
