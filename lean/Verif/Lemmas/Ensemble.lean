import Verif.Lemmas.Conv

/-!
Several junctions that see each other only through couplings which are computed at the beginning of a step and kept during it: the
joint step is a consistent and stable scheme for the coupled equations of motion.
-/

set_option linter.unusedSectionVars false
set_option linter.unusedSimpArgs false
set_option maxSynthPendingDepth 4

namespace Order
open Spec Junction

/-- time and magnetisations of all layers of all members -/
abbrev Y {N : Nat} (n : Fin N → Nat) := ℝ × (∀ i : Fin N, Fin (n i) → V)

variable {N : Nat} {n : Fin N → Nat} {W : Type*} [NormedAddCommGroup W] [NormedSpace ℝ W]

/-- what belongs to member `i` -/
noncomputable def sub (i : Fin N) : Y n →L[ℝ] X (n i) :=
  (ContinuousLinearMap.fst ℝ ℝ (∀ i : Fin N, Fin (n i) → V)).prod
    (ContinuousLinearMap.proj (R := ℝ) (φ := fun i : Fin N => Fin (n i) → V) i ∘L ContinuousLinearMap.snd ℝ ℝ (∀ i : Fin N, Fin (n i) → V))

theorem sub_eq (i : Fin N) (z : Y n) : sub i z = (z.1, z.2 i) := rfl

/-- the coupled equations: member `i` has the layers `P i w` where `w` is the coupling `c i` in the present state -/
noncomputable def whole (P : ∀ i, W → Fin (n i) → Layer ℝ) (c : Fin N → Y n → W) (z : Y n) : Y n :=
  (1, fun i => (rhs (P i (c i z)) (sub i z)).2)

/-- the increment of a joint step -/
noncomputable def wholeSlope (P : ∀ i, W → Fin (n i) → Layer ℝ) (c : Fin N → Y n → W) (z : Y n) (h : ℝ) : Y n :=
  (1, fun i => (frozenSlope (P i (c i z)) (sub i z) h).2)

/-- the equations of one member, the coupling being part of the state -/
noncomputable def lifted {m : Nat} (Q : W → Fin m → Layer ℝ) (p : X m × W) : X m × W := (rhs (Q p.2) p.1, 0)

/-- state of a member and its coupling -/
noncomputable def seen (c : Fin N → Y n → W) (i : Fin N) (z : Y n) : X (n i) × W := (sub i z, c i z)

/-- forget the other layers -/
noncomputable def keepW {m : Nat} (k : Fin m) : X m × W →L[ℝ] X m × W := (keep k).prodMap (.id ℝ W)

theorem keepW_eq {m : Nat} (k : Fin m) (z : X m) (w : W) : keepW k (z, w) = (keep k z, w) := rfl

theorem lifted_add {m : Nat} (Q : W → Fin m → Layer ℝ) (z u : X m) (w : W) (a : ℝ) :
    lifted Q ((z, w) + a • (u, (0 : W))) = (rhs (Q w) (z + a • u), 0) := by
  unfold lifted
  simp

theorem lifted_slope {m : Nat} (Q : W → Fin m → Layer ℝ) (k : Fin m) (z : X m) (w : W) (h : ℝ) :
    rkSlope (lifted Q) (keepW k) (z, w) h = (rkSlope (rhs (Q w)) (keep k) z h, 0) := by
  have s1 : slope1 (lifted Q) (z, w) h = (slope1 (rhs (Q w)) z h, (0 : W)) := rfl
  have s2 : slope2 (lifted Q) (keepW k) (z, w) h = (slope2 (rhs (Q w)) (keep k) z h, (0 : W)) := by
    unfold slope2; rw [s1, keepW_eq, lifted_add]
  have s3 : slope3 (lifted Q) (keepW k) (z, w) h = (slope3 (rhs (Q w)) (keep k) z h, (0 : W)) := by
    unfold slope3; rw [s2, keepW_eq, lifted_add]
  have s4 : slope4 (lifted Q) (keepW k) (z, w) h = (slope4 (rhs (Q w)) (keep k) z h, (0 : W)) := by
    unfold slope4; rw [s3, keepW_eq, lifted_add]
  unfold rkSlope
  rw [s1, s2, s3, s4]
  refine Prod.ext rfl ?_
  simp

/-- the part belonging to layer `k` of member `i` -/
noncomputable def ins (i : Fin N) (k : Fin (n i)) : X (n i) × W →L[ℝ] Y n :=
  ContinuousLinearMap.inr ℝ ℝ (∀ i : Fin N, Fin (n i) → V) ∘L ContinuousLinearMap.single ℝ (fun i : Fin N => Fin (n i) → V) i ∘L
    ContinuousLinearMap.single ℝ (fun _ : Fin (n i) => V) k ∘L
    ContinuousLinearMap.proj (R := ℝ) (φ := fun _ : Fin (n i) => V) k ∘L ContinuousLinearMap.snd ℝ ℝ (Fin (n i) → V) ∘L
    ContinuousLinearMap.fst ℝ (X (n i)) W

theorem ins_eq (i : Fin N) (k : Fin (n i)) (p : X (n i) × W) : ins i k p = ((0, Pi.single i (Pi.single k (p.1.2 k))) : Y n) := rfl

theorem all_parts (a : ℝ) (v : ∀ i : Fin N, Fin (n i) → X (n i) × W) :
    ((a, fun i k => (v i k).1.2 k) : Y n) = (a, 0) + ∑ i, ∑ k, ins i k (v i k) := by
  refine Prod.ext ?_ ?_
  · simp [ins_eq, Prod.fst_sum]
  · funext i
    have : ∀ k, (∑ q : Fin (n i), (Pi.single q ((v i q).1.2 q) : Fin (n i) → V)) k = (v i k).1.2 k := by
      intro k
      simp [Finset.sum_apply, Pi.single_apply]
    simp only [ins_eq, Prod.snd_add, Prod.snd_sum, Pi.add_apply, Finset.sum_apply, Pi.zero_apply, zero_add]
    rw [Finset.sum_eq_single i]
    · funext k
      rw [← this k]
      simp
    · intro q _ hq
      refine Finset.sum_eq_zero fun k _ => ?_
      rw [Pi.single_eq_of_ne (Ne.symm hq)]
    · simp

variable {ι : Type*} {x : ι → Y n} {P : ∀ i, W → Fin (n i) → Layer ℝ} {c : Fin N → Y n → W}

theorem wholeSlope_parts (z : Y n) (h : ℝ) : wholeSlope P c z h =
    (1, 0) + ∑ i, ∑ k, ins i k (rkSlope (lifted (P i)) (keepW k) (seen c i z) h) := by
  rw [← all_parts]
  unfold wholeSlope seen
  simp only [lifted_slope]
  rfl

theorem whole_parts (z : Y n) : whole P c z = (1, 0) + ∑ i, ∑ k, ins i k (lifted (P i) (seen c i z)) := by
  rw [← all_parts]
  rfl

theorem SL.comp {E G H : Type*} [NormedAddCommGroup E] [NormedSpace ℝ E] [NormedAddCommGroup G] [NormedSpace ℝ G] [NormedAddCommGroup H]
    [NormedSpace ℝ H] {x : ι → E} {φ : E → G} {S : G → ℝ → H} (hφ : Reg φ x) (hS : SL (fun i => φ (x i)) S) :
    SL x (fun z h => S (φ z) h) := by
  obtain ⟨ε, M, hε, hφ⟩ := hφ
  obtain ⟨ε', K, B, r, hε', hK, hB, hr, h⟩ := hS
  have hlip := lip_of (K := φ) (K' := D1 φ) (x := x) (ε := ε) (M := M) (fun i z hz => ⟨d1_at (hφ i z hz).1, (hφ i z hz).2.2.1⟩)
  have hlip' : ∀ i z w, ‖z - x i‖ < ε → ‖w - x i‖ < ε → ‖φ z - φ w‖ ≤ |M| * ‖z - w‖ := fun i z w hz hw =>
    (hlip i z w hz hw).trans (mul_le_mul_of_nonneg_right (le_abs_self M) (norm_nonneg _))
  refine ⟨min (ε / 2) (ε' / (|M| + 1)), K * |M|, B, r, lt_min (by positivity) (by positivity), by positivity, hB, hr,
    fun i z w s hz hw hs => ?_⟩
  have hx : ‖x i - x i‖ < ε := by simpa using hε
  have near : ∀ u, ‖u - x i‖ ≤ min (ε / 2) (ε' / (|M| + 1)) → ‖u - x i‖ < ε ∧ ‖φ u - φ (x i)‖ ≤ ε' := by
    intro u hu
    have h1 : ‖u - x i‖ < ε := (hu.trans (min_le_left _ _)).trans_lt (by linarith)
    refine ⟨h1, (hlip' i u (x i) h1 hx).trans ?_⟩
    have h2 := hu.trans (min_le_right _ _)
    rw [le_div_iff₀ (by positivity)] at h2
    nlinarith [norm_nonneg (u - x i)]
  obtain ⟨z1, z2⟩ := near z hz
  obtain ⟨w1, w2⟩ := near w hw
  obtain ⟨a, b⟩ := h i (φ z) (φ w) s z2 w2 hs
  refine ⟨a.trans ?_, b⟩
  rw [mul_assoc]
  exact mul_le_mul_of_nonneg_left (hlip' i z w z1 w1) hK

theorem whole_sl (hc : ∀ i, Reg (seen c i) x) (hP : ∀ i, Reg (lifted (P i)) (fun a => seen c i (x a))) : SL x (wholeSlope P c) := by
  have e : wholeSlope P c = fun z h => ((1 : ℝ), (0 : ∀ i : Fin N, Fin (n i) → V)) +
      ∑ i, ∑ k, ins i k (rkSlope (lifted (P i)) (keepW k) (seen c i z) h) := by
    funext z h; exact wholeSlope_parts z h
  rw [e]
  exact (SL.const x _).add (SL.sum (fun i => SL.sum (fun k => ((rkSlope_sl (hP i) (keepW k)).map (ins i k)).comp (hc i)) _) _)

theorem whole_near (hP : ∀ i, Reg (lifted (P i)) (fun a => seen c i (x a))) :
    UO 1 (fun a h => wholeSlope P c (x a) h - whole P c (x a)) := by
  refine (UO.sum (fun i => UO.sum (fun k => (rkSlope_near (hP i) (keepW k)).map (ins i k)) Finset.univ) Finset.univ).congr' fun a h => ?_
  rw [wholeSlope_parts, whole_parts]
  simp only [map_sub, Finset.sum_sub_distrib]
  abel

theorem whole_local {y : ι → ℝ → Y n} (hF : Reg (whole P c) x) (hy : Flow (whole P c) x y)
    (hP : ∀ i, Reg (lifted (P i)) (fun a => seen c i (x a))) :
    UO 2 (fun a h => y a h - (x a + h • wholeSlope P c (x a) h)) := by
  refine ((euler_local hF hy).sub (whole_near hP).step).congr' fun i h => ?_
  show y i h - (x i + h • wholeSlope P c (x i) h) = y i h - (x i + h • whole P c (x i)) - h • (wholeSlope P c (x i) h - whole P c (x i))
  module

/-! ### Normalisation -/

/-- normalise all magnetisations -/
noncomputable def renormAll (z : Y n) : Y n := (z.1, fun i k => toV (ofV (z.2 i k)).normalize)

/-- all magnetisations have length one -/
def UnitAll (n : Fin N → Nat) : Set (Y n) := {z | ∀ i k, ‖z.2 i k‖ = 1}

theorem renormAll_spec (z : Y n) (hz : z ∈ UnitAll n) (u : Y n) (hu : u ∈ UnitAll n) (w : Y n) (hw : ‖w - z‖ ≤ 1 / 2) :
    renormAll w ∈ UnitAll n ∧ ‖renormAll w - u‖ ≤ (1 + 2 * ‖w - z‖) * ‖w - u‖ := by
  have le2 : ∀ (w z : Y n) i k, ‖w.2 i k - z.2 i k‖ ≤ ‖w - z‖ := fun w z i k =>
    ((norm_le_pi_norm (w.2 i - z.2 i) k).trans (norm_le_pi_norm (w.2 - z.2) i)).trans (norm_snd_le (w - z))
  have key : ∀ i k, w.2 i k ≠ 0 ∧ ‖‖w.2 i k‖⁻¹ • w.2 i k - u.2 i k‖ ≤ (1 + 2 * ‖w - z‖) * ‖w.2 i k - u.2 i k‖ := fun i k =>
    renorm (hz i k) (hu i k) (le2 w z i k) hw
  constructor
  · intro i k
    show ‖toV (ofV (w.2 i k)).normalize‖ = 1
    rw [toV_normalize (key i k).1, norm_smul, norm_inv, norm_norm, inv_mul_cancel₀ (norm_ne_zero_iff.2 (key i k).1)]
  · refine (norm_prod_le_iff).2 ⟨?_, ?_⟩
    · have h1 : ‖(renormAll w - u).1‖ ≤ ‖w - u‖ := norm_fst_le (w - u)
      have : 0 ≤ ‖w - z‖ * ‖w - u‖ := by positivity
      nlinarith
    · refine (pi_norm_le_iff_of_nonneg (by positivity)).2 fun i => (pi_norm_le_iff_of_nonneg (by positivity)).2 fun k => ?_
      show ‖toV (ofV (w.2 i k)).normalize - u.2 i k‖ ≤ _
      rw [toV_normalize (key i k).1]
      exact (key i k).2.trans (mul_le_mul_of_nonneg_left (le2 w u i k) (by positivity))

/-! ### Convergence -/

/-- the states after the steps -/
noncomputable def iterAll (P : ∀ i, W → Fin (n i) → Layer ℝ) (c : Fin N → Y n → W) (h : ℝ) (M : ∀ i, Fin (n i) → V) : ℕ → Y n
  | 0 => (0, M)
  | k + 1 => renormAll (iterAll P c h M k + h • wholeSlope P c (iterAll P c h M k) h)

theorem iterAll_time (P : ∀ i, W → Fin (n i) → Layer ℝ) (c : Fin N → Y n → W) (h : ℝ) (M : ∀ i, Fin (n i) → V) (k : ℕ) :
    (iterAll P c h M k).1 = k * h := by
  induction k with
  | zero => simp [iterAll]
  | succ k ih =>
    show (iterAll P c h M k).1 + h * 1 = _
    rw [ih]; push_cast; ring

theorem reg_along {E G : Type*} [NormedAddCommGroup E] [NormedSpace ℝ E] [NormedAddCommGroup G] [NormedSpace ℝ G] {F : E → G} {y : ℝ → E}
    {T : ℝ} (hy : ContinuousOn y (Set.Icc 0 T)) (hF : ∀ t ∈ Set.Icc 0 T, ContDiffAt ℝ 4 F (y t)) :
    Reg F (fun t : Set.Icc 0 T => y t) :=
  (reg_of_compact (isCompact_Icc.image_of_continuousOn hy) (by rintro _ ⟨t, ht, rfl⟩; exact hF t ht)).comp
    (fun t : Set.Icc 0 T => (⟨y t, t, t.2, rfl⟩ : y '' Set.Icc 0 T))

/-- The iteration converges to solutions of the coupled equations. -/
theorem ensemble {y : ℝ → Y n} {lo hi T : ℝ} (hlo : lo < 0) (hhi : T < hi) (hT : 0 ≤ T)
    (hy : ∀ t ∈ Set.Ioo lo hi, HasDerivAt y (whole P c (y t)) t) (hc : ∀ i, ∀ t ∈ Set.Icc 0 T, ContDiffAt ℝ 4 (c i) (y t))
    (hP : ∀ i, ∀ t ∈ Set.Icc 0 T, ContDiffAt ℝ 4 (lifted (P i)) (seen c i (y t))) (hU : ∀ t ∈ Set.Icc 0 T, y t ∈ UnitAll n)
    (h0 : (y 0).1 = 0) :
    ∃ C q : ℝ, 0 < q ∧ ∀ (k : ℕ) (h : ℝ), 0 ≤ h → h ≤ q → k * h ≤ T → ‖iterAll P c h (y 0).2 k - y (k * h)‖ ≤ C * h := by
  have hs : ∀ i, ∀ t ∈ Set.Icc 0 T, ContDiffAt ℝ 4 (seen c i) (y t) := fun i t ht =>
    ((sub i).contDiff.contDiffAt).prodMk (hc i t ht)
  have hF : ∀ t ∈ Set.Icc 0 T, ContDiffAt ℝ 4 (whole P c) (y t) := by
    intro t ht
    have e : whole P c = fun z => ((1 : ℝ), (0 : ∀ i : Fin N, Fin (n i) → V)) + ∑ i, ∑ k, ins i k (lifted (P i) (seen c i z)) := by
      funext z; exact whole_parts z
    rw [e]
    refine contDiffAt_const.add (ContDiffAt.sum fun i _ => ContDiffAt.sum fun k _ => ?_)
    exact (ins i k).contDiff.contDiffAt.comp (y t) ((hP i t ht).comp (y t) (hs i t ht))
  obtain ⟨hR, hFl⟩ := trajectory hlo hhi hy hF
  have hyc : ContinuousOn y (Set.Icc 0 T) := fun t ht =>
    (hy t ⟨by linarith [ht.1], by linarith [ht.2]⟩).continuousAt.continuousWithinAt
  have hRs : ∀ i, Reg (seen c i) (fun t : Set.Icc 0 T => y t) := fun i => reg_along hyc (hs i)
  have hRP : ∀ i, Reg (lifted (P i)) (fun t : Set.Icc 0 T => seen c i (y t)) := fun i =>
    reg_along (y := fun t => seen c i (y t)) (fun t ht => ((hs i t ht).continuousAt.comp_continuousWithinAt (hyc t ht))) (hP i)
  obtain ⟨C, q, hq, hG⟩ := global hT le_rfl (whole_local hR hFl hRP) (whole_sl hRs hRP) hU
    (fun z hz u hu w hw => renormAll_spec z hz u hu w hw)
  refine ⟨C, q, hq, fun k h a b d => ?_⟩
  have := hG k h a b d (iterAll P c h (y 0).2) (Prod.ext h0.symm rfl) (fun _ _ => rfl)
  simpa using this

end Order
