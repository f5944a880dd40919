import Verif.Lemmas.EnsembleExist
import Verif.Lemmas.GroupConv
import Verif.Spec.MotionReservoir
import Verif.Props.ReservoirLogs
import Verif.Props.Convergence

/-!
C137: runs of reservoirs converge to a solution of coupled equations of motion, but not of those with the dipole fields of the elements.
-/

set_option linter.unusedSectionVars false
set_option linter.unusedSimpArgs false

namespace Reservoir
open Spec Order

/-! ### The elements as an ensemble -/

/-- helper: every element is one layer -/
abbrev one (n : Nat) : Fin n → Nat := fun _ => 1

/-- helper -/
theorem exposed_all (h : CVec ℝ) (l : Layer ℝ) : exposed "all" h l = under h l := if_pos (.inr rfl)

/-- helper: the element under a field -/
noncomputable def dressed {n : Nat} (L : Nat → Layer ℝ) (i : Fin n) (w : V) (_ : Fin (one n i)) : Layer ℝ := exposed "all" (ofV w) (L i.1)

/-- helper: the field at an element -/
noncomputable def pull (F : Pairing) {n : Nat} (R : Nat → CVec ℝ) (L : Nat → Layer ℝ) (i : Fin n) (z : Y (one n)) : V :=
  toV (fromDipoles F n R L (fun k => magAt z.2 k 0) i.1)

/-- helper: the sum involves the elements only, and smoothly -/
structure Tame (F : Pairing) : Prop where
  inside : ∀ (n i : Nat) (R M M' : Nat → CVec ℝ) (Ms Ms' : Nat → ℝ) (V : ℝ), i < n → (∀ k < n, M k = M' k) → (∀ k < n, Ms k = Ms' k) →
    F n i R M Ms V = F n i R M' Ms' V
  smooth : ∀ (n i : Nat) (R : Nat → CVec ℝ) (Ms : Nat → ℝ) (V : ℝ) (z : Y (one n)),
    CD (fun w : Y (one n) => F n i R (fun k => magAt w.2 k 0) Ms V) z

/-- helper -/
theorem vsum_same {s : Finset Nat} {f g : Nat → CVec ℝ} (h : ∀ k ∈ s, f k = g k) : vsum s f = vsum s g := by
  unfold vsum
  rw [Finset.sum_congr rfl fun k hk => congrArg CVec.x (h k hk), Finset.sum_congr rfl fun k hk => congrArg CVec.y (h k hk),
    Finset.sum_congr rfl fun k hk => congrArg CVec.z (h k hk)]

/-- helper -/
theorem misaligned_tame : Tame misalignedField := by
  refine ⟨fun n i R M M' Ms Ms' V hi h1 h2 => ?_, fun n i R Ms V z => ?_⟩
  · unfold misalignedField
    refine congrArg (smul V) (vsum_same fun k hk => ?_)
    have hk := Finset.mem_range.1 hk
    rw [h1 k (by omega), h2 k (by omega)]
  · exact CD.smul (c := fun _ => V) contDiffAt_const (CD.vsum fun k _ =>
      (CD.smul (c := fun _ => Ms k / (1257 / 10 ^ 9)) contDiffAt_const (magAt_smooth k 0 z)).pointDipole _)

/-- helper -/
theorem aligned_tame : Tame reservoirField := by
  refine ⟨fun n i R M M' Ms Ms' V hi h1 h2 => ?_, fun n i R Ms V z => ?_⟩
  · unfold reservoirField
    refine congrArg (smul V) (vsum_same fun k hk => ?_)
    have hk := Finset.mem_range.1 (Finset.mem_of_mem_erase hk)
    rw [h1 k hk, h2 k hk]
  · exact CD.smul (c := fun _ => V) contDiffAt_const (CD.vsum fun k _ =>
      (CD.smul (c := fun _ => Ms k / (1257 / 10 ^ 9)) contDiffAt_const (magAt_smooth k 0 z)).pointDipole _)

/-- helper -/
theorem pull_smooth {F : Pairing} (hF : Tame F) {n : Nat} (R : Nat → CVec ℝ) (L : Nat → Layer ℝ) (i : Fin n) (z : Y (one n)) :
    ContDiffAt ℝ 4 (pull F R L i) z :=
  CD.toV (CD.smul (c := fun _ => -1) contDiffAt_const (hF.smooth n i.1 R _ _ z))

/-- helper: the right-hand side with a given dipole field -/
theorem llgD_under {l : Layer ℝ} (hg : l.Guard) (hf : ∀ t, l.HreservedDriver.value t = ⟨0, 0, 0⟩) (c : LayerLog ℝ) (v : CVec ℝ) (t : ℝ)
    (m d : CVec ℝ) : ((l.setCache c).setMag v).llgDV t m .zero .zero d = motion (under (smul (-1) d) l) t m ⟨0, 0, 0⟩ ⟨0, 0, 0⟩ := by
  have h := llgV_layer (under (smul (-1) d) l) c v t m .zero .zero hg
  have z : (CVec.zero : CVec ℝ) = ⟨0, 0, 0⟩ := by ext <;> simp
  rw [← z, ← h]
  unfold Layer.llgV Layer.llgDV
  have e : ((l.setCache c).setMag v).heffV t m .zero .zero d .zero = (((under (smul (-1) d) l).setCache c).setMag v).heffV t m .zero .zero
      ((((under (smul (-1) d) l).setCache c).setMag v).dipV .zero .zero) .zero := by
    unfold Layer.heffV
    have e1 : ((l.setCache c).setMag v).HreservedDriver.value t = ⟨0, 0, 0⟩ := hf t
    have e2 : (((under (smul (-1) d) l).setCache c).setMag v).HreservedDriver.value t = smul (-1) d := ofVec_value _ t
    have e3 : (((under (smul (-1) d) l).setCache c).setMag v).dipV .zero .zero = ⟨0, 0, 0⟩ := by
      unfold Layer.dipV
      ext <;> simp [Tensor.interaction, CVec.dot]
    rw [e1, e2, e3]
    set A := ((l.setCache c).setMag v).externalFieldDriver.value t + ((l.setCache c).setMag v).anisotropyField
        (((l.setCache c).setMag v).anisotropyDriver.value t) m
      + (((l.setCache c).setMag v).iecV (((l.setCache c).setMag v).IECDriverBottom.value t) (((l.setCache c).setMag v).IECQuadDriverBottom.value t) m .zero
         + ((l.setCache c).setMag v).iecV (((l.setCache c).setMag v).IECDriverTop.value t) (((l.setCache c).setMag v).IECQuadDriverTop.value t) m .zero)
      + (((l.setCache c).setMag v).idmiV (((l.setCache c).setMag v).IDMIDriverBottom.value t) .zero
         + ((l.setCache c).setMag v).idmiV (((l.setCache c).setMag v).IDMIDriverTop.value t) .zero)
      + ((l.setCache c).setMag v).HoeDriver.value t + ((l.setCache c).setMag v).HdmiDriver.value t + .zero
      - Tensor.interaction m ((l.setCache c).setMag v).demagTensor ((l.setCache c).setMag v).Ms with hA
    show A - d + ⟨0, 0, 0⟩ = A - ⟨0, 0, 0⟩ + smul (-1) d
    ext <;> simp [smul] <;> ring
  rw [e]
  simp only [Layer.solveLLG, apply_ite Prod.fst]
  rfl

/-- helper: `r` holds the elements `L` with the magnetisations `M` -/
structure Keeps {n : Nat} (R : Nat → CVec ℝ) (L : Nat → Layer ℝ) (M : ∀ i : Fin n, Fin (one n i) → V) (r : Reservoir ℝ) : Prop where
  sound : Sound R r
  number : r.noElements = n
  element : ∀ i : Fin n, ∃ c, r.layer i.1 = some (((L i.1).setCache c).setMag (ofV (M i 0)))

variable {n : Nat} {R : Nat → CVec ℝ} {L : Nat → Layer ℝ}

/-- helper: one step -/
theorem Keeps.step {M : ∀ i : Fin n, Fin (one n i) → V} {r : Reservoir ℝ} (h : Keeps R L M r)
    (hd : ∀ i < n, ∀ k < n, i ≠ k → 0 < away (R i - R k)) (hg : ∀ i < n, (L i).Guard)
    (hf : ∀ i < n, ∀ t, (L i).HreservedDriver.value t = ⟨0, 0, 0⟩) (t dt : ℝ) : ∃ r', r.runSolver t dt = .ok () r' ∧
      Keeps R L (renormAll ((t, M) + dt • wholeSlope (dressed L) (pull misalignedField R L) (t, M) dt)).2 r' := by
  obtain ⟨K, hK, h1, h2⟩ := step_sound h.sound h.number hd t dt
  have hK := (elements_layer.1 hK).2
  have key : ∀ i : Fin n, ∃ c, K i.1 = ((L i.1).setCache c).setMag (ofV (M i 0)) := by
    intro i
    obtain ⟨c, hc⟩ := h.element i
    rw [hK i.1 i.2] at hc
    exact ⟨c, Option.some.inj hc⟩
  have hfield : ∀ i : Fin n, misalignedField n i.1 R (fun k => (K k).mag) (fun k => (K k).Ms) ((K i.1).thickness * (K i.1).cellSurface) =
      misalignedField n i.1 R (fun k => magAt M k 0) (fun k => (L k).Ms) ((L i.1).thickness * (L i.1).cellSurface) := by
    intro i
    obtain ⟨c, hc⟩ := key i
    rw [show (K i.1).thickness = (L i.1).thickness by rw [hc]; rfl, show (K i.1).cellSurface = (L i.1).cellSurface by rw [hc]; rfl]
    refine misaligned_tame.inside n i.1 R _ _ _ _ _ i.2 (fun k hk => ?_) (fun k hk => ?_)
    · obtain ⟨c, hc⟩ := key ⟨k, hk⟩
      have e : magAt M k 0 = ofV (M ⟨k, hk⟩ 0) := magAt_eq M ⟨k, hk⟩ 0
      rw [e]
      show (K k).mag = _
      rw [hc]
      rfl
    · obtain ⟨c, hc⟩ := key ⟨k, hk⟩
      show (K k).Ms = _
      rw [hc]
      rfl
  have adv : ∀ i : Fin n, ∃ c, (K i.1).rk4StepDipoleInjection t dt .zero .zero
      (misalignedField n i.1 R (fun k => (K k).mag) (fun k => (K k).Ms) ((K i.1).thickness * (K i.1).cellSurface)) =
      .ok () (((L i.1).setCache c).setMag (ofV ((renormAll ((t, M) + dt • wholeSlope (dressed L) (pull misalignedField R L) (t, M) dt)).2 i 0))) := by
    intro i
    obtain ⟨c, hc⟩ := key i
    rw [hfield i, hc]
    obtain ⟨c', hc'⟩ := (((L i.1).setCache c).setMag (ofV (M i 0))).rk4D_ok t dt .zero .zero
      (misalignedField n i.1 R (fun k => magAt M k 0) (fun k => (L k).Ms) ((L i.1).thickness * (L i.1).cellSurface)) (hg i.1 i.2)
    refine ⟨c', hc'.trans (congrArg (fun w => Out.ok () (((L i.1).setCache c').setMag w)) ?_)⟩
    unfold Layer.rk4DV
    simp only [llgD_under (hg i.1 i.2) (hf i.1 i.2)]
    have := rk4U_frozen (dressed L i (pull misalignedField R L i (t, M))) (t, M i) dt 0
    have hb : low (M i) 0 = ⟨0, 0, 0⟩ := by unfold low; simp
    have ha : up (M i) 0 = ⟨0, 0, 0⟩ := by unfold up; simp
    have hp : dressed L i (pull misalignedField R L i (t, M)) 0 = under (smul (-1) (misalignedField n i.1 R (fun k => magAt M k 0)
        (fun k => (L k).Ms) ((L i.1).thickness * (L i.1).cellSurface))) (L i.1) := by
      unfold dressed pull fromDipoles
      rw [exposed_all, ofV_toV]
    simp only [hb, ha, hp] at this
    show (Layer.rk4U _ t dt (ofV (M i 0))).normalize = _
    rw [this]
    show _ = ofV (toV (ofV _).normalize)
    rw [ofV_toV]
    rfl
  obtain ⟨r', hr'⟩ := h1.2 fun i hi => by
    obtain ⟨c, hc⟩ := adv ⟨i, hi⟩
    exact ⟨_, hc⟩
  refine ⟨r', hr', ?_⟩
  obtain ⟨K', hK', h3⟩ := h2 r' hr'
  have hK' := elements_layer.1 hK'
  refine ⟨?_, hK'.1, fun i => ?_⟩
  · have := frame_solver r t dt
    rw [hr'] at this
    exact h.sound.frame this
  · obtain ⟨c, hc⟩ := adv i
    rw [h3 i.1 i.2] at hc
    have e := congrArg Out.st hc
    refine ⟨c, ?_⟩
    rw [hK'.2 i.1 i.2]
    exact congrArg some e

/-- helper -/
theorem Keeps.log {M : ∀ i : Fin n, Fin (one n i) → V} {r r' : Reservoir ℝ} (h : Keeps R L M r) {t : ℝ} (hl : r.logData t = .ok () r') :
    Keeps R L M r' := by
  have hf := frame_log r t
  rw [hl] at hf
  have e : r'.layers = r.layers ∧ r'.cols = r.cols ∧ r'.rows = r.rows := by
    unfold logData at hl
    split at hl
    · cases hl; exact ⟨rfl, rfl, rfl⟩
    · cases hl
  refine ⟨h.sound.frame hf, ?_, fun i => ?_⟩
  · unfold noElements; rw [e.2.1, e.2.2]; exact h.number
  · unfold layer; rw [e.1, e.2.1]; exact h.element i

/-- helper -/
theorem Keeps.logs {M : ∀ i : Fin n, Fin (one n i) → V} {r : Reservoir ℝ} (h : Keeps R L M r) (t : ℝ) : ∃ r', r.logData t = .ok () r' := by
  choose c hc using h.element
  refine ⟨_, logData_eq (L := fun i => if hi : i < n then ((L i).setCache (c ⟨i, hi⟩)).setMag (ofV (M ⟨i, hi⟩ 0)) else L i) (fun i hi => ?_) t⟩
  rw [h.number] at hi
  rw [dif_pos hi]
  exact hc ⟨i, hi⟩

/-- helper: the states of the elements after some steps -/
noncomputable abbrev after (F : Pairing) (n : Nat) (R : Nat → CVec ℝ) (L : Nat → Layer ℝ) (dt : ℝ) (k : ℕ) : Y (one n) :=
  iterAll (dressed L) (pull F R L) dt (fun i _ => toV (L i.1).mag) k

/-- helper: the loop -/
theorem Keeps.loop (hd : ∀ i < n, ∀ k < n, i ≠ k → 0 < away (R i - R k)) (hg : ∀ i < n, (L i).Guard)
    (hf : ∀ i < n, ∀ t, (L i).HreservedDriver.value t = ⟨0, 0, 0⟩) (dt : ℝ) (k i : Nat) {r : Reservoir ℝ}
    (h : Keeps R L (after misalignedField n R L dt i).2 r) :
    ∃ r', Reservoir.loop dt i k r = .ok () r' ∧ Keeps R L (after misalignedField n R L dt (i + k)).2 r' := by
  induction k generalizing i r with
  | zero => exact ⟨r, rfl, h⟩
  | succ k ih =>
    obtain ⟨r1, e1, h1⟩ := h.step hd hg hf (Scalar.lit (i : ℚ) * dt) dt
    have et : (Scalar.lit (i : ℚ) * dt : ℝ) = (after misalignedField n R L dt i).1 := by
      rw [iterAll_time]; simp
    obtain ⟨r2, e2⟩ := h1.logs (Scalar.lit (i : ℚ) * dt)
    have h2 := h1.log e2
    rw [et] at h2
    obtain ⟨r3, e3, h3⟩ := ih (i + 1) h2
    refine ⟨r3, ?_, by rwa [show i + (k + 1) = i + 1 + k by omega]⟩
    unfold Reservoir.loop
    simp only [e1, Out.bind_ok, e2]
    exact e3

/-! ### Convergence -/

/-- helper: the curves as one curve -/
noncomputable def curve (n : Nat) (m : Nat → ℝ → CVec ℝ) (t : ℝ) : Y (one n) := (t, fun i _ => toV (m i.1 t))

/-- helper -/
theorem pull_curve {F : Pairing} (hF : Tame F) (m : Nat → ℝ → CVec ℝ) (t : ℝ) (i : Fin n) :
    pull F R L i (curve n m t) = toV (fromDipoles F n R L (fun k => m k t) i.1) := by
  unfold pull fromDipoles
  refine congrArg (fun w => toV (smul (-1) w)) (hF.inside n i.1 R _ _ _ _ _ i.2 (fun k hk => ?_) fun _ _ => rfl)
  exact (magAt_eq (curve n m t).2 ⟨k, hk⟩ 0).trans (ofV_toV _)

/-- helper: single layers have no neighbours -/
theorem low_one (i : Fin n) (M : Fin (one n i) → V) (k : Fin (one n i)) : low M k = ⟨0, 0, 0⟩ := by
  unfold low; simp

/-- helper -/
theorem up_one (i : Fin n) (M : Fin (one n i) → V) (k : Fin (one n i)) : up M k = ⟨0, 0, 0⟩ := by
  unfold up; simp

variable {F : Pairing}

/-- helper -/
theorem curve_deriv (hF : Tame F) {m : Nat → ℝ → CVec ℝ} {T : ℝ} (h : ReservoirTrack F n R L m T) : ∃ lo hi : ℝ, lo < 0 ∧ T < hi ∧
    (∀ t ∈ Set.Ioo lo hi, HasDerivAt (curve n m) (whole (dressed L) (pull F R L) (curve n m t)) t) ∧
    ∀ i < n, ∀ t ∈ Set.Ioo lo hi, (0 : ℝ) ∈ Set.Ioo lo hi → (m i t).length = 1 := by
  obtain ⟨lo, hi, hlo, hhi, hm⟩ := h.solves
  refine ⟨lo, hi, hlo, hhi, fun t ht => ?_, fun i hi' t ht h0 => ?_⟩
  · refine HasDerivAt.prodMk (hasDerivAt_id t) (hasDerivAt_pi.2 fun i => hasDerivAt_pi.2 fun k => ?_)
    refine (slope_toV (hm i.1 i.2 t ht)).congr_deriv ?_
    show toV _ = toV (motion (exposed "all" (ofV (pull F R L i (curve n m t))) (L i.1)) t (ofV (toV (m i.1 t))) (low _ k) (up _ k))
    rw [pull_curve hF, low_one, up_one, ofV_toV, ofV_toV, exposed_all]
  · rw [length_steady (l := fun t => under (fromDipoles F n R L (fun k => m k t) i) (L i)) (c := m i) (b := fun _ => ⟨0, 0, 0⟩)
      (a := fun _ => ⟨0, 0, 0⟩) h0 (fun s hs => hm i hi' s hs) t ht, h.start i hi']
    exact h.unit i hi'

/-- helper -/
theorem track_states (hF : Tame F) {m : Nat → ℝ → CVec ℝ} {T : ℝ} (hT : 0 ≤ T) (h : ReservoirTrack F n R L m T) : ∃ C q : ℝ, 0 < q ∧
    ∀ (k : ℕ) (dt : ℝ), 0 ≤ dt → dt ≤ q → k * dt ≤ T → ‖after F n R L dt k - curve n m (k * dt)‖ ≤ C * dt := by
  obtain ⟨lo, hi, hlo, hhi, hd, hu⟩ := curve_deriv hF h
  have in_ : ∀ t ∈ Set.Icc 0 T, t ∈ Set.Ioo lo hi := fun t ht => ⟨by linarith [ht.1], by linarith [ht.2]⟩
  obtain ⟨C, q, hq, hC⟩ := ensemble (P := dressed L) (c := pull F R L) (y := curve n m) hlo hhi hT hd
    (fun i t _ => pull_smooth hF R L i _) (fun i t ht => by
      refine lifted_smooth "all" (fun _ : Fin (one n i) => L i.1) _ (fun _ => h.smooth i.1 i.2 t ht) fun k => ?_
      show NoPole (L i.1) (ofV (toV (m i.1 t))) (low _ k) (up _ k)
      rw [low_one, up_one, ofV_toV]
      exact h.noPole i.1 i.2 t ht)
    (fun t ht i k => by
      show ‖toV (m i.1 t)‖ = 1
      rw [norm_toV]
      exact hu i.1 i.2 t (in_ t ht) (in_ 0 ⟨le_rfl, hT⟩)) rfl
  refine ⟨C, q, hq, fun k dt h0 hdt hn => ?_⟩
  have key := hC k dt h0 hdt hn
  have e0 : (curve n m 0).2 = fun i _ => toV (L i.1).mag := by
    funext i k
    show toV (m i.1 0) = _
    rw [h.start i.1 i.2]
  rwa [e0] at key

/-- helper -/
theorem keeps_near {M : Y (one n)} {r : Reservoir ℝ} (h : Keeps R L M.2 r) {m : Nat → ℝ → CVec ℝ} {t e : ℝ} (he : ‖M - curve n m t‖ ≤ e) :
    ReservoirNear r m t e := by
  intro i hi l hl
  have hi : i < n := by have := h.number; unfold noElements at this; omega
  obtain ⟨c, hc⟩ := h.element ⟨i, hi⟩
  unfold layer at hc
  rw [entry_atCell] at hc
  have := hl.symm.trans hc
  cases this
  show (ofV (M.2 ⟨i, hi⟩ 0) - m i t).length ≤ _
  rw [← norm_toV, toV_sub, toV_ofV]
  refine le_trans ?_ he
  exact ((norm_le_pi_norm (M.2 ⟨i, hi⟩ - (curve n m t).2 ⟨i, hi⟩) 0).trans
    (norm_le_pi_norm (M.2 - (curve n m t).2) ⟨i, hi⟩)).trans (norm_snd_le (M - curve n m t))

/-- helper -/
theorem near_keeps {M : Y (one n)} {r : Reservoir ℝ} (h : Keeps R L M.2 r) {m : Nat → ℝ → CVec ℝ} {t e : ℝ} (he : ReservoirNear r m t e)
    {i : Nat} (hi : i < n) : ‖M.2 ⟨i, hi⟩ 0 - toV (m i t)‖ ≤ e := by
  obtain ⟨c, hc⟩ := h.element ⟨i, hi⟩
  unfold layer at hc
  rw [entry_atCell] at hc
  have := he i (by have := h.number; unfold noElements at this; omega) _ hc
  rw [← norm_toV, toV_sub] at this
  have e1 : toV (((L i).setCache c).setMag (ofV (M.2 ⟨i, hi⟩ 0))).mag = M.2 ⟨i, hi⟩ 0 := toV_ofV _
  rwa [e1] at this

variable {pos : List (List (CVec ℝ))} {r : Reservoir ℝ}

/-- helper -/
theorem start_keeps (hp : Placed pos n R) (hr : ReservoirReachable pos r) (hL : Elements r n L) (dt : ℝ) :
    Keeps R L (after misalignedField n R L dt 0).2 r := by
  obtain ⟨row, hpos, hn, hR, hd⟩ := hp
  obtain ⟨hS, hN⟩ := reachable_sound hr hpos (hn ▸ hR)
  rw [← hn] at hN
  refine ⟨hS, hN, fun i => ⟨(L i.1).cache, ?_⟩⟩
  rw [(elements_layer.1 hL).2 i.1 i.2]
  show some (L i.1) = some (((L i.1).setCache (L i.1).cache).setMag (ofV (toV (L i.1).mag)))
  rw [ofV_toV]
  rfl

/-- helper -/
theorem guard_of {l : Layer ℝ} (h : l.Ms * l.thickness ≠ 0) : l.Guard := by
  unfold Layer.Guard
  simpa using h

/-- C137 (first part of the claim: convergence, but to the solution of the equations the code integrates). Runs of a reservoir converge,
with an error at most proportional to the time step, to the solution of the coupled equations of motion with the field
`misalignedField`. The full claim has `reservoirField`, the dipole fields of the elements, in place of `misalignedField`; it fails,
see `C137_refuted`. -/
theorem C137_converges_partial (hp : Placed pos n R) (hr : ReservoirReachable pos r) (hL : Elements r n L) (m : Nat → ℝ → CVec ℝ) (T : ℝ)
    (h : ReservoirTrack misalignedField n R L m T) : ReservoirConverges r m T 1 := by
  suffices ∃ C q : ℝ, 0 < q ∧ ∀ (k : Nat) (dt : ℝ), 0 < dt → dt ≤ q → k * dt ≤ T → ∀ r', Reservoir.loop dt 0 k r = .ok () r' →
      ReservoirNear r' m (k * dt) (C * dt ^ 1) by
    obtain ⟨C, q, hq, hn⟩ := this
    refine ⟨C, q, hq, hn, fun dt total hdt hdr h0 hle r' hg => ?_⟩
    have hq0 := div_nonneg h0 hdt.le
    have hNf : Reservoir.loop dt 0 ⌊total / dt⌋₊ r = .ok () r' := by
      unfold runSimulation at hg
      by_cases hb : total / dt < 2147483648
      · have : (Scalar.toInt (total / dt) : Option Int) = some ⌊total / dt⌋ := by
          simp only [Scalar.toInt]
          rw [if_pos ⟨by linarith, hb⟩]
          unfold Scalar.truncR
          rw [if_pos hq0]
        rw [this] at hg
        exact hg
      · have : (Scalar.toInt (total / dt) : Option Int) = none := if_neg fun q => hb q.2
        rw [this] at hg
        cases hg
    refine hn _ dt hdt hdr ?_ r' hNf
    have := Nat.floor_le hq0
    rw [le_div_iff₀ hdt] at this
    linarith
  by_cases hT : 0 ≤ T
  swap
  · exact ⟨0, 1, one_pos, fun k dt hdt _ hn => absurd (le_trans (by positivity) hn) hT⟩
  obtain ⟨C, q, hq, hC⟩ := track_states misaligned_tame hT h
  refine ⟨C, q, hq, fun k dt hdt hdr hn r' hl => ?_⟩
  obtain ⟨row, hpos, hn', hR, hd⟩ := id hp
  obtain ⟨r1, e1, h1⟩ := (start_keeps hp hr hL dt).loop hd (fun i hi => guard_of (h.volume i hi)) h.free dt k 0
  have := e1.symm.trans hl
  simp only [Out.ok, Out.mk.injEq, true_and] at this
  subst this
  rw [zero_add] at h1
  rw [pow_one]
  exact keeps_near h1 (hC k dt hdt.le hdr hn)

/-- C137. The loop ends, so that the bound speaks of actual states. -/
theorem C137_ends (hp : Placed pos n R) (hr : ReservoirReachable pos r) (hL : Elements r n L) (hv : ∀ i < n, (L i).Ms * (L i).thickness ≠ 0)
    (hf : ∀ i < n, ∀ t, (L i).HreservedDriver.value t = ⟨0, 0, 0⟩) (k : Nat) (dt : ℝ) : ∃ r', Reservoir.loop dt 0 k r = .ok () r' := by
  obtain ⟨row, hpos, hn', hR, hd⟩ := id hp
  obtain ⟨r1, e1, -⟩ := (start_keeps hp hr hL dt).loop hd (fun i hi => guard_of (hv i hi)) hf dt k 0
  exact ⟨r1, e1⟩

/-- helper -/
theorem tame_exists (hF : Tame F) (T : ℝ) (hT : 0 ≤ T) (hu : ∀ i < n, (L i).mag.length = 1)
    (hv : ∀ i < n, (L i).Ms * (L i).thickness ≠ 0) (hf : ∀ i < n, ∀ t, (L i).HreservedDriver.value t = ⟨0, 0, 0⟩)
    (hs : ∀ i < n, SmoothDrivers (L i)) (hp : ∀ i < n, Poleless (L i)) : ∃ m, ReservoirTrack F n R L m T := by
  obtain ⟨α, hα0, hα⟩ := clipEach_solution (whole (dressed L) (pull F R L)) T hT (fun z hz => by
    refine whole_smooth (fun i => pull_smooth hF R L i z) fun i =>
      lifted_smooth "all" (fun _ : Fin (one n i) => L i.1) _ (fun k => Junction.C111_drivers _ (hs i.1 i.2) _) fun k => ?_
    have hb := each_ball hz.2 i
    refine hp i.1 i.2 _ _ _ ?_ (low_le hb k) (up_le hb k)
    rw [mem_closedBall_zero_iff, pi_norm_le_iff_of_nonneg zero_le_one] at hb
    rw [← norm_toV, toV_ofV]; exact hb k) (fun i _ => toV (L i.1).mag)
  have h0 : (0 : ℝ) ∈ Set.Ioo (-1) (T + 1) := ⟨by norm_num, by linarith⟩
  have hunit := clipEach_unit h0 hα (fun i k => by rw [hα0, norm_toV]; exact hu i.1 i.2)
  let m : Nat → ℝ → CVec ℝ := fun i t => magAt (α t) i 0
  have hm : ∀ {i : Nat} (hi : i < n) t, m i t = ofV (α t ⟨i, hi⟩ 0) := fun {i} hi t => magAt_eq (α t) ⟨i, hi⟩ 0
  have hcv : ∀ t, curve n m t = (t, α t) := by
    intro t
    refine Prod.ext rfl (funext fun i => funext fun k => ?_)
    show toV (m i.1 t) = _
    rw [hm i.2, toV_ofV, Subsingleton.elim k 0]
  refine ⟨m, ⟨⟨-1, T + 1, by norm_num, by linarith, fun i hi t ht => ?_⟩, fun i hi => ?_, hu, hv, hf,
    fun i hi t _ => Junction.C111_drivers _ (hs i hi) t, fun i hi t ht => ?_⟩⟩
  · have d1 := of_toV (hasDerivAt_pi.1 (hasDerivAt_pi.1 (hα t ht) ⟨i, hi⟩) 0)
    have hc : clipEach (α t) = α t := funext fun i => funext fun k => clip_self (hunit t ht i k).le
    have e1 : ofV ((whole (dressed L) (pull F R L) (t, clipEach (α t))).2 ⟨i, hi⟩ 0) =
        motion (under (fromDipoles F n R L (fun k => m k t) i) (L i)) t (m i t) ⟨0, 0, 0⟩ ⟨0, 0, 0⟩ := by
      rw [hm hi, hc]
      have e2 : ofV (pull F R L ⟨i, hi⟩ (t, α t)) = fromDipoles F n R L (fun k => m k t) i := by
        rw [← hcv, pull_curve hF, ofV_toV]
      rw [← e2, ← exposed_all, ← low_one ⟨i, hi⟩ (α t ⟨i, hi⟩) 0]
      nth_rw 2 [low_one]
      rw [← up_one ⟨i, hi⟩ (α t ⟨i, hi⟩) 0]
      show ofV (toV _) = _
      rw [ofV_toV]
      rfl
    rw [e1] at d1
    have e2 : m i = fun s => ofV (α s ⟨i, hi⟩ 0) := funext fun s => hm hi s
    rw [e2] at d1 ⊢
    exact d1
  · rw [hm hi, hα0, ofV_toV]
  · have ht' : t ∈ Set.Ioo (-1) (T + 1) := ⟨by linarith [ht.1], by linarith [ht.2]⟩
    refine hp i hi _ _ _ ?_ ?_ ?_
    · rw [hm hi, ← norm_toV, toV_ofV, hunit t ht']
    · simp [CVec.length_eq, CVec.normSq]
    · simp [CVec.length_eq, CVec.normSq]

/-- C137. Both equations, the intended one and the one the code integrates, have a solution on every time interval. -/
theorem C137_exists (hF : F = reservoirField ∨ F = misalignedField) (T : ℝ) (hT : 0 ≤ T) (hu : ∀ i < n, (L i).mag.length = 1)
    (hv : ∀ i < n, (L i).Ms * (L i).thickness ≠ 0) (hf : ∀ i < n, ∀ t, (L i).HreservedDriver.value t = ⟨0, 0, 0⟩)
    (hs : ∀ i < n, SmoothDrivers (L i)) (hp : ∀ i < n, Poleless (L i)) : ∃ m, ReservoirTrack F n R L m T := by
  rcases hF with rfl | rfl
  · exact tame_exists aligned_tame T hT hu hv hf hs hp
  · exact tame_exists misaligned_tame T hT hu hv hf hs hp

/-- C137. The solutions are unique. -/
theorem C137_unique (hF : F = reservoirField ∨ F = misalignedField) (m m' : Nat → ℝ → CVec ℝ) (T : ℝ) (h : ReservoirTrack F n R L m T)
    (h' : ReservoirTrack F n R L m' T) (i : Nat) (hi : i < n) (t : ℝ) (ht : t ∈ Set.Icc 0 T) : m i t = m' i t := by
  have hF : Tame F := by
    rcases hF with rfl | rfl
    · exact aligned_tame
    · exact misaligned_tame
  have hT : 0 ≤ T := ht.1.trans ht.2
  obtain ⟨C, q, hq, hC⟩ := track_states hF hT h
  obtain ⟨C', q', hq', hC'⟩ := track_states hF hT h'
  have e := congrArg Prod.snd (limits_agree (z := fun dt k => after F n R L dt k) hq hq' hC hC' ht.1 ht.2)
  have := congrFun (congrFun e ⟨i, hi⟩) 0
  rw [← ofV_toV (m i t), ← ofV_toV (m' i t)]
  exact congrArg ofV this

/-- helper: curves to which the runs converge agree -/
theorem converge_same (hp : Placed pos n R) (hr : ReservoirReachable pos r) (hL : Elements r n L) {m m' : Nat → ℝ → CVec ℝ} {T : ℝ}
    (h : ReservoirTrack misalignedField n R L m T) (h' : ReservoirConverges r m' T 1) (i : Nat) (hi : i < n) (t : ℝ) (h0 : 0 < t) (ht : t ≤ T) :
    m i t = m' i t := by
  obtain ⟨row, hpos, hn', hR, hd⟩ := id hp
  obtain ⟨C, q, hq, hC, -⟩ := C137_converges_partial hp hr hL m T h
  obtain ⟨C', q', hq', hC', -⟩ := h'
  have key : ∀ {m : Nat → ℝ → CVec ℝ} {C q : ℝ}, (∀ (n : Nat) (dt : ℝ), 0 < dt → dt ≤ q → n * dt ≤ T → ∀ r', Reservoir.loop dt 0 n r = .ok () r' →
      ReservoirNear r' m (n * dt) (C * dt ^ 1)) → ∀ (k : ℕ) (dt : ℝ), 0 < dt → dt ≤ q → k * dt ≤ T →
      ‖(after misalignedField n R L dt k).2 ⟨i, hi⟩ 0 - toV (m i (k * dt))‖ ≤ C * dt := by
    intro m C q hC k dt h0 hdt hk
    obtain ⟨r1, e1, h1⟩ := (start_keeps hp hr hL dt).loop hd (fun i hi => guard_of (h.volume i hi)) h.free dt k 0
    rw [zero_add] at h1
    have := near_keeps h1 (hC k dt h0 hdt hk r1 e1) hi
    rwa [pow_one] at this
  have pad : ∀ {m : Nat → ℝ → CVec ℝ} {C q : ℝ}, (∀ (k : ℕ) (dt : ℝ), 0 < dt → dt ≤ q → k * dt ≤ T →
      ‖(after misalignedField n R L dt k).2 ⟨i, hi⟩ 0 - toV (m i (k * dt))‖ ≤ C * dt) → ∀ (k : ℕ) (dt : ℝ), 0 ≤ dt → dt ≤ q → k * dt ≤ T →
      ‖(if k * dt = 0 then 0 else (after misalignedField n R L dt k).2 ⟨i, hi⟩ 0) - (if k * dt = 0 then 0 else toV (m i (k * dt)))‖ ≤ C * dt := by
    intro m C q hb k dt h1 hdt hk
    rcases h1.eq_or_lt with rfl | h1
    · simp
    · by_cases hz : k * dt = 0
      · rw [if_pos hz, if_pos hz, sub_zero, norm_zero]
        exact (norm_nonneg _).trans (hb 0 dt h1 hdt (by simp; linarith))
      · rw [if_neg hz, if_neg hz]
        exact hb k dt h1 hdt hk
  have e := limits_agree (z := fun dt (k : ℕ) => if k * dt = 0 then (0 : V) else (after misalignedField n R L dt k).2 ⟨i, hi⟩ 0)
    (y := fun s => if s = 0 then 0 else toV (m i s)) (y' := fun s => if s = 0 then 0 else toV (m' i s)) hq hq' (pad (key hC)) (pad (key hC')) h0.le ht
  simp only [if_neg h0.ne'] at e
  rw [← ofV_toV (m i t), ← ofV_toV (m' i t), e]

/-- helper -/
theorem two_volume : ∀ i < 2, (twoL i).Ms * (twoL i).thickness ≠ 0 := fun i _ => by
  unfold twoL; split <;> simp [Layer.setMag, Junction.quietLayer, plainOf, Layer.demo]

/-- helper -/
theorem two_free : ∀ i < 2, ∀ t, (twoL i).HreservedDriver.value t = ⟨0, 0, 0⟩ := fun i _ t => by
  unfold twoL; split <;> simp [Layer.setMag, Junction.quietLayer, plainOf, Layer.demo, AxialDriver.value, AxialDriver.null, ScalarDriver.value,
    ScalarDriver.null, ScalarDriver.constantDriver]

/-- helper -/
theorem two_track (hF : Tame F) : ∃ m, ReservoirTrack F 2 twoR twoL m 1 := by
  refine tame_exists hF 1 zero_le_one (fun i _ => ?_) two_volume two_free (fun i _ => ?_) fun i _ => ?_
  · unfold twoL; split <;> simp [Layer.setMag, CVec.length_eq, CVec.normSq]
  · unfold twoL; split <;> constructor <;> simp [Layer.setMag, Junction.quietLayer, plainOf, Layer.demo, SmoothKind, SmoothAxes, ScalarDriver.null,
      ScalarDriver.constantDriver, AxialDriver.null, AxialDriver.ofVec]
  · intro _ _ _ _ _ _ hs
    unfold twoL at hs
    split at hs <;> simp [Layer.setMag, Junction.quietLayer, plainOf] at hs

/-- helper: the torque on the first element -/
theorem two_torque (w : CVec ℝ) : (motion (under w (twoL 0)) 0 ⟨0, 1, 0⟩ ⟨0, 0, 0⟩ ⟨0, 0, 0⟩).x =
    -220880 * ((field { twoL 0 with HreservedDriver := .ofVec ⟨0, 0, 0⟩ } 0 ⟨0, 1, 0⟩ ⟨0, 0, 0⟩ ⟨0, 0, 0⟩).z + w.z) := by
  have e : field (under w (twoL 0)) 0 ⟨0, 1, 0⟩ ⟨0, 0, 0⟩ ⟨0, 0, 0⟩ =
      field { twoL 0 with HreservedDriver := .ofVec ⟨0, 0, 0⟩ } 0 ⟨0, 1, 0⟩ ⟨0, 0, 0⟩ ⟨0, 0, 0⟩ + w := field_exposed (twoL 0) w 0 _ _ _
  unfold motion
  simp only [e]
  generalize field { twoL 0 with HreservedDriver := .ofVec ⟨0, 0, 0⟩ } 0 ⟨0, 1, 0⟩ ⟨0, 0, 0⟩ ⟨0, 0, 0⟩ = f
  simp [twoL, under, smul, spinTorque, Junction.quietLayer, plainOf, Layer.demo, Layer.setMag, CVec.cross]
  ring

/-- helper -/
theorem two_differs (hF : Tame F) (hz : ∀ M : Nat → CVec ℝ, M 0 = ⟨0, 1, 0⟩ → M 1 = ⟨0, 0, 1⟩ → (fromDipoles F 2 twoR twoL M 0).z ≠ 0) :
    ∃ (r : Reservoir ℝ) (m : Nat → ℝ → CVec ℝ), ReservoirReachable twoPoints r ∧ Elements r 2 twoL ∧ ReservoirTrack F 2 twoR twoL m 1 ∧
      ¬ ReservoirConverges r m 1 1 := by
  obtain ⟨r, hr, hL⟩ := two_exists
  obtain ⟨m, hm⟩ := two_track hF
  obtain ⟨m', hm'⟩ := two_track misaligned_tame
  refine ⟨r, m, hr, hL, hm, fun hc => ?_⟩
  have same : ∀ t ∈ Set.Icc (0 : ℝ) 1, m' 0 t = m 0 t := by
    intro t ht
    rcases ht.1.eq_or_lt with rfl | h0
    · rw [hm.start 0 (by norm_num), hm'.start 0 (by norm_num)]
    · exact converge_same twoPlaced hr hL hm' hc 0 (by norm_num) t h0 ht.2
  obtain ⟨lo, hi, hlo, hhi, s⟩ := hm.solves
  obtain ⟨lo', hi', hlo', hhi', s'⟩ := hm'.solves
  have d := (s 0 (by norm_num) 0 ⟨hlo, by linarith⟩).1.hasDerivWithinAt (s := Set.Icc 0 1)
  have d' := (s' 0 (by norm_num) 0 ⟨hlo', by linarith⟩).1.hasDerivWithinAt (s := Set.Icc 0 1)
  have d'' := d'.congr (fun t ht => (congrArg CVec.x (same t ht)).symm) (congrArg CVec.x (same 0 ⟨le_rfl, zero_le_one⟩)).symm
  have e := (uniqueDiffOn_Icc_zero_one 0 ⟨le_rfl, zero_le_one⟩).eq_deriv _ d d''
  have m0 : m 0 0 = ⟨0, 1, 0⟩ := by rw [hm.start 0 (by norm_num)]; simp [twoL, Layer.setMag]
  have m1 : m 1 0 = ⟨0, 0, 1⟩ := by rw [hm.start 1 (by norm_num)]; simp [twoL, Layer.setMag]
  have m0' : m' 0 0 = ⟨0, 1, 0⟩ := by rw [hm'.start 0 (by norm_num)]; simp [twoL, Layer.setMag]
  rw [m0, m0', two_torque, two_torque] at e
  refine hz (fun k => m k 0) m0 m1 ?_
  have e2 : (fromDipoles F 2 twoR twoL (fun k => m k 0) 0).z = (fromDipoles misalignedField 2 twoR twoL (fun k => m' k 0) 0).z := by
    linarith
  rw [e2]
  simp [fromDipoles, misalignedField, vsum, smul, pointDipole, twoR, twoL, m0', Layer.setMag, Junction.quietLayer, plainOf, Layer.demo]

/-- helper -/
theorem two_field (M : Nat → CVec ℝ) (h1 : M 1 = ⟨0, 0, 1⟩) : (fromDipoles reservoirField 2 twoR twoL M 0).z ≠ 0 := by
  have he : (Finset.range 2).erase 0 = {1} := by decide
  have h10 : away ((⟨0, 0, 0⟩ : CVec ℝ) - ⟨1, 0, 0⟩) = 1 := by simp [away]
  have hpi := Real.pi_ne_zero
  simp [fromDipoles, reservoirField, he, vsum, smul, pointDipole, twoR, twoL, h1, Layer.setMag, Junction.quietLayer, plainOf, Layer.demo, h10]

/-- C137 fails: the runs of a row of two elements, magnetised along y and z, do not converge to the solution in which every element
feels the dipole field of the other. (That solution exists and is unique.) -/
theorem C137_refuted : ∃ (pos : List (List (CVec ℝ))) (R : Nat → CVec ℝ) (r : Reservoir ℝ) (L : Nat → Layer ℝ) (m : Nat → ℝ → CVec ℝ),
    Placed pos 2 R ∧ ReservoirReachable pos r ∧ Elements r 2 L ∧ ReservoirTrack reservoirField 2 R L m 1 ∧ ¬ ReservoirConverges r m 1 1 := by
  obtain ⟨r, m, h1, h2, h3, h4⟩ := two_differs aligned_tame fun M _ h => two_field M h
  exact ⟨twoPoints, twoR, r, twoL, m, twoPlaced, h1, h2, h3, h4⟩

/-- C137 fails with the other sign too, with which the field of the dipoles is added. -/
theorem C137_refuted_sign : ∃ (pos : List (List (CVec ℝ))) (R : Nat → CVec ℝ) (r : Reservoir ℝ) (L : Nat → Layer ℝ) (m : Nat → ℝ → CVec ℝ),
    Placed pos 2 R ∧ ReservoirReachable pos r ∧ Elements r 2 L ∧
    ReservoirTrack (fun n i R M Ms V => smul (-1) (reservoirField n i R M Ms V)) 2 R L m 1 ∧ ¬ ReservoirConverges r m 1 1 := by
  have hF : Tame fun n i R M Ms V => smul (-1) (reservoirField n i R M Ms V) :=
    ⟨fun n i R M M' Ms Ms' V hi h1 h2 => congrArg (smul (-1)) (aligned_tame.inside n i R M M' Ms Ms' V hi h1 h2),
      fun n i R Ms V z => CD.smul (c := fun _ => -1) contDiffAt_const (aligned_tame.smooth n i R Ms V z)⟩
  obtain ⟨r, m, h1, h2, h3, h4⟩ := two_differs hF fun M _ h h' => two_field M h (by
    simp only [fromDipoles, smul] at h' ⊢
    linarith)
  exact ⟨twoPoints, twoR, r, twoL, m, twoPlaced, h1, h2, h3, h4⟩

/-- The two elements meet the hypotheses: the solution, its approximation by the loop, and the loop itself. -/
example : ∃ (r : Reservoir ℝ) (m : Nat → ℝ → CVec ℝ), Placed twoPoints 2 twoR ∧ ReservoirReachable twoPoints r ∧ Elements r 2 twoL ∧
    ReservoirTrack misalignedField 2 twoR twoL m 1 ∧ ReservoirConverges r m 1 1 ∧ ∃ r', Reservoir.loop (1 / 10) 0 10 r = .ok () r' := by
  obtain ⟨r, hr, hL⟩ := two_exists
  obtain ⟨m, hm⟩ := two_track misaligned_tame
  exact ⟨r, m, twoPlaced, hr, hL, hm, C137_converges_partial twoPlaced hr hL m 1 hm, C137_ends twoPlaced hr hL two_volume two_free 10 _⟩

end Reservoir
