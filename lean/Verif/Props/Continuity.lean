import Verif.Props.Precision
import Verif.Props.Relax

set_option linter.unusedSectionVars false
set_option linter.unusedSimpArgs false

/-!
# C145: runs depend continuously on the parameters and on the start

Real arithmetic is an arithmetic without rounding errors, so the limits of C121 also hold for families of real junctions.
-/

open Filter Topology

/-- Real arithmetic, without any rounding error. -/
noncomputable def Rounding.exact : Rounding ℝ 0 where
  val x := x
  nonneg := le_rfl
  lit q := by simp [Close]
  zero := by simp
  pi := by simp [Close]
  add a b := by simp [Close]
  sub a b := by simp [Close]
  mul a b := by simp [Close]
  div a b _ := by simp [Close]
  neg a := rfl
  abs a := rfl
  powi a n := by simp [Close]
  sqrt a _ := by simp [Close]
  sin a := by simp [Close]
  cos a := by simp [Close]
  exp a := by simp [Close]
  ltb a b := rfl
  leb a b := rfl
  eqb a b := rfl
  toInt a := rfl
  toUInt a := rfl

namespace Spec

/-- The junctions `J q` depend continuously on `q` at `p`: they have the layers of `J p`, with the same names and flags, and every
number in the layers (parameters, magnetisations, numbers of the drivers) tends to that of `J p`. -/
def VariesContinuously {P : Type} [TopologicalSpace P] (J : P → Junction ℝ) (p : P) : Prop :=
  JLim (fun _ => Rounding.exact) (𝓝 p) J (J p)

/-- The magnetisation of layer `n` as a point of space. -/
noncomputable def pointOf (ls : List (Layer ℝ)) (n : Nat) : ℝ × ℝ × ℝ := ((magOf ls n).x, (magOf ls n).y, (magOf ls n).z)

/-- All layers in the constant external field `H`. -/
noncomputable def underField (ls : List (Layer ℝ)) (H : ℝ × ℝ × ℝ) : List (Layer ℝ) :=
  ls.map fun l => { l with
    externalFieldDriver := .ofVec ⟨H.1, H.2.1, H.2.2⟩ }

/-- The layers with the magnetisations `M`. -/
def startingAt (ls : List (Layer ℝ)) (M : Nat → ℝ × ℝ × ℝ) : List (Layer ℝ) :=
  ls.mapIdx fun i l => { l with
    mag := ⟨(M i).1, (M i).2.1, (M i).2.2⟩ }

/-- The layers have no thermal or coloured noise, different names, moments other than zero, no spin transfer torque, and their drivers
have no jumps. -/
structure Untroubled (ls : List (Layer ℝ)) : Prop where
  quiet : ∀ l ∈ ls, ¬ Noisy l
  ids : (ls.map Layer.id).Nodup
  moment : ∀ l ∈ ls, l.Ms * l.thickness ≠ 0
  stt : ∀ l ∈ ls, l.includeSTT = false
  calm : ∀ l ∈ ls, ∀ t, Calm l t

end Spec

namespace Junction
open Spec Layer

theorem exact_rate : ∀ {P : Type} (F : Filter P), Tendsto (fun _ : P => (0 : ℝ)) F (𝓝 0) := fun _ => tendsto_const_nhds

/-- C145. Let junctions depend continuously on a parameter. If the run of one succeeds, meets no jump of its drivers and no zero
magnetisation, the runs with nearby parameters succeed, and final magnetisations and all logged magnetisations depend continuously
on the parameter there. -/
theorem C145_run {P : Type} [TopologicalSpace P] {J : P → Junction ℝ} {p : P} (hJ : VariesContinuously J p)
    (hR : ∀ q, Reachable (J q)) (hD : ∀ q, DistinctIds (J q)) (hQ : ∀ q, ∀ l ∈ (J q).layers, ¬ Noisy l)
    (hlog : ∀ q, (J q).log = (J p).log) (hg : ∀ l ∈ (J p).layers, l.Ms * l.thickness ≠ 0)
    {total dt wf : ℝ} (h0 : 0 < dt) (hw : dt ≤ wf) {N W : Nat} (hN : Scalar.toUInt (total / dt) = some N)
    (hW : Scalar.toUInt (wf / dt) = some W) (hW0 : W ≠ 0) (en : Bool) (mode : SolverMode)
    (hreg : ∀ m < N, ∀ (n : Nat) (l : Layer ℝ), (states (pickRunner (J p).layers.length mode) dt (J p) m)[n]? = some l →
      Regular (pickRunner (J p).layers.length mode) (states (pickRunner (J p).layers.length mode) dt (J p) m) (m * dt) dt n l)
    (hne : ∀ m < N, ∀ l ∈ states (pickRunner (J p).layers.length mode) dt (J p) (m + 1), l.mag ≠ ⟨0, 0, 0⟩) :
    ∃ K : P → Junction ℝ, (∀ᶠ q in 𝓝 p, (J q).runSimulation total dt wf en mode = .ok () (K q)) ∧
      (∀ n, ContinuousAt (fun q => pointOf (K q).layers n) p) ∧
      ∀ l ∈ (J p).layers, ∀ c ∈ ["_mx", "_my", "_mz"],
        ColumnTends (fun _ => Rounding.exact) (𝓝 p) (fun q => (K q).log.col (l.id ++ c)) ((K p).log.col (l.id ++ c)) := by
  have hu := exact_rate (𝓝 p)
  have hG : ∀ᶠ q in 𝓝 p, ∀ n ∈ Finset.range (J p).layers.length, ∀ l, (J q).layers[n]? = some l → l.Guard := by
    rw [Filter.eventually_all_finset]
    intro n hn
    have hlt := Finset.mem_range.1 hn
    obtain ⟨L, h1, h2⟩ := hJ.layers n _ (List.getElem?_eq_getElem hlt)
    have he := Lim.eqb (Lim.mul hu h2.Ms h2.thickness) (Lim.lit hu 0) (by simpa using hg _ (List.getElem_mem hlt))
    filter_upwards [h1, he] with q a b l hl
    rw [a] at hl; cases hl
    exact b
  have hok : ∀ᶠ q in 𝓝 p, ∃ K, (J q).runSimulation total dt wf en mode = .ok () K := by
    filter_upwards [hJ.length, hG] with q a1 a2
    refine C27_completes_any (fun x => by simp) (J q) (hR q) (fun l hl => ?_) (hQ q) _ _ _ en mode (by simpa using hw) hN hW hW0
    obtain ⟨n, hn⟩ := List.mem_iff_getElem?.1 hl
    exact a2 n (Finset.mem_range.2 (by rw [← a1]; exact (List.getElem?_eq_some_iff.1 hn).1)) l hn
  have hex : ∀ q, ∃ K, (∃ K, (J q).runSimulation total dt wf en mode = .ok () K) → (J q).runSimulation total dt wf en mode = .ok () K := by
    intro q
    by_cases h : ∃ K, (J q).runSimulation total dt wf en mode = .ok () K
    · obtain ⟨K, hK⟩ := h; exact ⟨K, fun _ => hK⟩
    · exact ⟨J q, fun h' => absurd h' h⟩
  choose K hK using hex
  have hKe : ∀ᶠ q in 𝓝 p, (J q).runSimulation total dt wf en mode = .ok () (K q) := hok.mono fun q h => hK q h
  obtain ⟨c1, -, c2⟩ := C121_run (R := fun _ => Rounding.exact) hu hJ hR hD (hR p) (hD p) hQ (hQ p)
    (fun key => ⟨.of_forall fun q => by dsimp only; rw [hlog q], fun i _ => by
      simp only [hlog, Rounding.exact, Scalar.ofNat_real, Nat.cast_zero]
      exact tendsto_const_nhds⟩)
    (total := fun _ => total) (dt := fun _ => dt) (wf := fun _ => wf) (D := total) (δ := dt) (w := wf) tendsto_const_nhds h0 hN hW
    (.of_forall fun _ => hN) (.of_forall fun _ => hW) hKe hKe.self_of_nhds rfl hreg hne
  exact ⟨K, hKe, fun n => (c1 n).1.prodMk_nhds ((c1 n).2.1.prodMk_nhds (c1 n).2.2), fun l hl c hc => c2 l hl c hc⟩

/-- helper -/
theorem exact_self {P : Type} (F : Filter P) (a : ℝ) : Lim (fun _ : P => Rounding.exact) F (fun _ => a) a := tendsto_const_nhds

theorem exact_driver {P : Type} (F : Filter P) (d : ScalarDriver ℝ) : DLim (fun _ : P => Rounding.exact) F (fun _ => d) d := by
  constructor <;> first | exact fun _ => rfl | exact exact_self F _

theorem exact_axial {P : Type} (F : Filter P) (d : AxialDriver ℝ) : ALim (fun _ : P => Rounding.exact) F (fun _ => d) d :=
  ⟨exact_driver F _, exact_driver F _, exact_driver F _⟩

theorem exact_vec {P : Type} (F : Filter P) (v : CVec ℝ) : VLim (fun _ : P => Rounding.exact) F (fun _ => v) v :=
  ⟨exact_self F _, exact_self F _, exact_self F _⟩

theorem exact_tensor {P : Type} (F : Filter P) (v : Tensor ℝ) : TLim (fun _ : P => Rounding.exact) F (fun _ => v) v :=
  ⟨exact_vec F _, exact_vec F _, exact_vec F _⟩

theorem exact_constant {P : Type} {F : Filter P} {c : P → ℝ} {a : ℝ} (h : Tendsto c F (𝓝 a)) :
    DLim (fun _ : P => Rounding.exact) F (fun q => .constantDriver (c q)) (.constantDriver a) := by
  constructor <;> first | exact fun _ => rfl | exact h | exact exact_self F _

theorem tame_calm {ls : List (Layer ℝ)} (h : Untroubled ls) {j : Junction ℝ} (hj : j.layers = ls) (r : Runner) (dt : ℝ) (m n : Nat) (l : Layer ℝ)
    (hl : (states r dt j m)[n]? = some l) : Regular r (states r dt j m) (m * dt) dt n l :=
  C121_smooth (fun l hl => ⟨h.stt l (hj ▸ hl), h.calm l (hj ▸ hl)⟩) r dt m n l hl

theorem tame_field {ls : List (Layer ℝ)} (h : Untroubled ls) (H : ℝ × ℝ × ℝ) : Untroubled (underField ls H) := by
  have hm : ∀ l ∈ underField ls H, ∃ l' ∈ ls, l = { l' with
      externalFieldDriver := .ofVec ⟨H.1, H.2.1, H.2.2⟩ } := by
    intro l hl
    obtain ⟨l', a, rfl⟩ := List.mem_map.1 hl
    exact ⟨l', a, rfl⟩
  refine ⟨fun l hl => ?_, ?_, fun l hl => ?_, fun l hl => ?_, fun l hl t => ?_⟩
  · obtain ⟨l', a, rfl⟩ := hm l hl; exact h.quiet l' a
  · rw [underField, List.map_map]; exact h.ids
  · obtain ⟨l', a, rfl⟩ := hm l hl; exact h.moment l' a
  · obtain ⟨l', a, rfl⟩ := hm l hl; exact h.stt l' a
  · obtain ⟨l', a, rfl⟩ := hm l hl
    obtain ⟨⟩ := h.calm l' a t
    constructor <;> first | assumption | exact ⟨trivial, trivial, trivial⟩

theorem tame_start {ls : List (Layer ℝ)} (h : Untroubled ls) (M : Nat → ℝ × ℝ × ℝ) : Untroubled (startingAt ls M) := by
  have hm : ∀ l ∈ startingAt ls M, ∃ l' ∈ ls, ∃ m, l = { l' with
      mag := m } := by
    intro l hl
    obtain ⟨i, hi, rfl⟩ := List.mem_mapIdx.1 hl
    exact ⟨ls[i], List.getElem_mem hi, _, rfl⟩
  refine ⟨fun l hl => ?_, ?_, fun l hl => ?_, fun l hl => ?_, fun l hl t => ?_⟩
  · obtain ⟨l', a, m, rfl⟩ := hm l hl; exact h.quiet l' a
  · have : (startingAt ls M).map Layer.id = ls.map Layer.id := by
      apply List.ext_getElem <;> simp [startingAt]
    rw [this]; exact h.ids
  · obtain ⟨l', a, m, rfl⟩ := hm l hl; exact h.moment l' a
  · obtain ⟨l', a, m, rfl⟩ := hm l hl; exact h.stt l' a
  · obtain ⟨l', a, m, rfl⟩ := hm l hl
    obtain ⟨⟩ := h.calm l' a t
    constructor <;> assumption

theorem plain_eq {ls : List (Layer ℝ)} {j : Junction ℝ} (h : Junction.plain ls = .ok j) : j.layers = ls ∧ j.log = [] := by
  unfold Junction.plain at h
  split at h
  · cases h
  · cases h
    exact ⟨rfl, rfl⟩

/-- C145: of layers without jumps, the state at the end of a run depends continuously on the external field: with finite runs, the
switching of a hysteresis loop is steep, not a jump. -/
theorem C145_field {ls : List (Layer ℝ)} (h : Untroubled ls) {J : ℝ × ℝ × ℝ → Junction ℝ} (hJ : ∀ H, Junction.plain (underField ls H) = .ok (J H))
    {total dt wf : ℝ} (h0 : 0 < dt) (hw : dt ≤ wf) {N W : Nat} (hN : Scalar.toUInt (total / dt) = some N)
    (hW : Scalar.toUInt (wf / dt) = some W) (hW0 : W ≠ 0) (en : Bool) (mode : SolverMode) (H : ℝ × ℝ × ℝ)
    (hne : ∀ m < N, ∀ l ∈ states (pickRunner ls.length mode) dt (J H) (m + 1), l.mag ≠ ⟨0, 0, 0⟩) :
    ∃ K : ℝ × ℝ × ℝ → Junction ℝ, (∀ᶠ G in 𝓝 H, (J G).runSimulation total dt wf en mode = .ok () (K G)) ∧
      ∀ n, ContinuousAt (fun G => pointOf (K G).layers n) H := by
  have hl : ∀ G, (J G).layers = underField ls G := fun G => (plain_eq (hJ G)).1
  have hlen : ∀ G, (J G).layers.length = ls.length := fun G => by rw [hl, underField, List.length_map]
  have hv : VariesContinuously J H := by
    refine ⟨.of_forall fun G => by rw [hlen, hlen], fun n l hn => ?_⟩
    rw [hl, underField, List.getElem?_map, Option.map_eq_some_iff] at hn
    obtain ⟨l', hl', rfl⟩ := hn
    refine ⟨fun G => { l' with
      externalFieldDriver := .ofVec ⟨G.1, G.2.1, G.2.2⟩ }, .of_forall fun G => by rw [hl, underField, List.getElem?_map, hl']; rfl, ?_⟩
    have hx : Tendsto (fun G : ℝ × ℝ × ℝ => G.1) (𝓝 H) (𝓝 H.1) := continuous_fst.continuousAt
    have hy : Tendsto (fun G : ℝ × ℝ × ℝ => G.2.1) (𝓝 H) (𝓝 H.2.1) := (continuous_fst.comp continuous_snd).continuousAt
    have hz : Tendsto (fun G : ℝ × ℝ × ℝ => G.2.2) (𝓝 H) (𝓝 H.2.2) := (continuous_snd.comp continuous_snd).continuousAt
    constructor <;> first | exact fun _ => rfl | exact exact_driver _ _ | exact exact_axial _ _ | exact exact_self _ _ |
      exact exact_vec _ _ | exact exact_tensor _ _ | exact ⟨exact_constant hx, exact_constant hy, exact_constant hz⟩
  have ht := fun G => tame_field h G
  obtain ⟨K, k1, k2, -⟩ := C145_run hv (fun G => ⟨J G, [], .inl ⟨_, hJ G⟩, rfl⟩) (fun G => by unfold DistinctIds; rw [hl]; exact (ht G).ids)
    (fun G => by rw [hl]; exact (ht G).quiet) (fun G => by rw [(plain_eq (hJ G)).2, (plain_eq (hJ H)).2])
    (by rw [hl]; exact (ht H).moment) h0 hw hN hW hW0 en mode (fun m _ n l hs => tame_calm (ht H) (hl H) _ dt m n l hs)
    (by rw [hlen]; exact hne)
  exact ⟨K, k1, k2⟩

/-- C145: the state at the end of a run depends continuously on the state at its start. -/
theorem C145_start {ls : List (Layer ℝ)} (h : Untroubled ls) {J : (Nat → ℝ × ℝ × ℝ) → Junction ℝ}
    (hJ : ∀ M, Junction.plain (startingAt ls M) = .ok (J M))
    {total dt wf : ℝ} (h0 : 0 < dt) (hw : dt ≤ wf) {N W : Nat} (hN : Scalar.toUInt (total / dt) = some N)
    (hW : Scalar.toUInt (wf / dt) = some W) (hW0 : W ≠ 0) (en : Bool) (mode : SolverMode) (M : Nat → ℝ × ℝ × ℝ)
    (hne : ∀ m < N, ∀ l ∈ states (pickRunner ls.length mode) dt (J M) (m + 1), l.mag ≠ ⟨0, 0, 0⟩) :
    ∃ K : (Nat → ℝ × ℝ × ℝ) → Junction ℝ, (∀ᶠ A in 𝓝 M, (J A).runSimulation total dt wf en mode = .ok () (K A)) ∧
      ∀ n, ContinuousAt (fun A => pointOf (K A).layers n) M := by
  have hl : ∀ A, (J A).layers = startingAt ls A := fun A => (plain_eq (hJ A)).1
  have hlen : ∀ A, (J A).layers.length = ls.length := fun A => by rw [hl, startingAt, List.length_mapIdx]
  have hv : VariesContinuously J M := by
    refine ⟨.of_forall fun A => by rw [hlen, hlen], fun n l hn => ?_⟩
    rw [hl, startingAt, List.getElem?_mapIdx, Option.map_eq_some_iff] at hn
    obtain ⟨l', hl', rfl⟩ := hn
    refine ⟨fun A => { l' with
      mag := ⟨(A n).1, (A n).2.1, (A n).2.2⟩ }, .of_forall fun A => by rw [hl, startingAt, List.getElem?_mapIdx, hl']; rfl, ?_⟩
    have hp : Tendsto (fun A : Nat → ℝ × ℝ × ℝ => A n) (𝓝 M) (𝓝 (M n)) := (continuous_apply n).continuousAt
    have hm : VLim (fun _ => Rounding.exact) (𝓝 M) (fun A : Nat → ℝ × ℝ × ℝ => (⟨(A n).1, (A n).2.1, (A n).2.2⟩ : CVec ℝ))
        ⟨(M n).1, (M n).2.1, (M n).2.2⟩ :=
      ⟨(continuous_fst.tendsto _).comp hp, ((continuous_fst.comp continuous_snd).tendsto _).comp hp,
        ((continuous_snd.comp continuous_snd).tendsto _).comp hp⟩
    constructor <;> first | exact fun _ => rfl | exact hm | exact exact_driver _ _ | exact exact_axial _ _ | exact exact_self _ _ |
      exact exact_vec _ _ | exact exact_tensor _ _
  have ht := fun A => tame_start h A
  obtain ⟨K, k1, k2, -⟩ := C145_run hv (fun A => ⟨J A, [], .inl ⟨_, hJ A⟩, rfl⟩) (fun A => by unfold DistinctIds; rw [hl]; exact (ht A).ids)
    (fun A => by rw [hl]; exact (ht A).quiet) (fun A => by rw [(plain_eq (hJ A)).2, (plain_eq (hJ M)).2])
    (by rw [hl]; exact (ht M).moment) h0 hw hN hW hW0 en mode (fun m _ n l hs => tame_calm (ht M) (hl M) _ dt m n l hs)
    (by rw [hlen]; exact hne)
  exact ⟨K, k1, k2⟩

/-- C145: steps that are short enough do not end at a zero magnetisation. -/
theorem C145_short {j : Junction ℝ} (hu : ∀ l ∈ j.layers, l.mag.length = 1) (hv : ∀ l ∈ j.layers, l.Ms * l.thickness ≠ 0)
    (hq : ∀ l ∈ j.layers, ¬ Noisy l) (hs : ∀ l ∈ j.layers, SmoothDrivers l) (hp : ∀ l ∈ j.layers, Poleless l) {T : ℝ} (hT : 0 ≤ T)
    (mode : SolverMode) : ∃ r : ℝ, 0 < r ∧ ∀ (n : Nat) (dt : ℝ), 0 < dt → dt ≤ r → n * dt ≤ T →
      ∀ l ∈ states (pickRunner j.layers.length mode) dt j n, l.mag ≠ ⟨0, 0, 0⟩ := by
  obtain ⟨m, hm⟩ := C111_exists j T hT hu hv hq hs hp
  obtain ⟨C, q, hq0, h⟩ := track_steps hT hm (pickRunner j.layers.length mode) pickRunner_single
  refine ⟨min q (min 1 (1 / (2 * (|C| + 1)))), by positivity, fun n dt h0 h1 h2 l hl e => ?_⟩
  have hC : 0 < |C| + 1 := by positivity
  obtain ⟨k, hk, hn⟩ := h n dt h0.le (h1.trans (min_le_left _ _)) h2
  have hst : states (pickRunner j.layers.length mode) dt j n = k.layers := by
    unfold states
    rw [steps_eq_evolve, hk]
    rfl
  have hlen := evolve_length hk
  rw [hst] at hl
  obtain ⟨i, hi⟩ := List.mem_iff_getElem?.1 hl
  have hil : i < j.layers.length := by rw [← hlen]; exact (List.getElem?_eq_some_iff.1 hi).1
  have hone := track_unit hm (t := n * dt) ⟨by positivity, h2⟩ (List.getElem?_eq_getElem hil)
  have hle := hn i l hi
  rw [e] at hle
  have e1 : ((⟨0, 0, 0⟩ : CVec ℝ) - m i (n * dt)).length = 1 := by
    rw [← hone]
    simp [CVec.length_eq, CVec.normSq]
  rw [e1] at hle
  have hd1 : dt ≤ 1 := h1.trans ((min_le_right _ _).trans (min_le_left _ _))
  have hd2 : dt ≤ 1 / (2 * (|C| + 1)) := h1.trans ((min_le_right _ _).trans (min_le_right _ _))
  have hpow : dt ^ Order.order (pickRunner j.layers.length mode) ≤ dt :=
    pow_le_of_le_one h0.le hd1 (by generalize pickRunner _ _ = r; cases r <;> decide)
  have h3 : C * dt ^ Order.order (pickRunner j.layers.length mode) ≤ (|C| + 1) * (1 / (2 * (|C| + 1))) :=
    mul_le_mul ((le_abs_self C).trans (by linarith)) (hpow.trans hd2) (by positivity) hC.le
  have h4 : (|C| + 1) * (1 / (2 * (|C| + 1))) = 1 / 2 := by field_simp
  linarith

/-- C145: runs of layers without jumps that start at unit magnetisations depend continuously on the external field, at
every field, if the steps are short enough. -/
theorem C145_curve {ls : List (Layer ℝ)} (h : Untroubled ls) (hs : ∀ l ∈ ls, SmoothDrivers l) (hu : ∀ l ∈ ls, l.mag.length = 1)
    {J : ℝ × ℝ × ℝ → Junction ℝ} (hJ : ∀ H, Junction.plain (underField ls H) = .ok (J H)) {T : ℝ} (hT : 0 ≤ T) (mode : SolverMode)
    (H : ℝ × ℝ × ℝ) : ∃ r : ℝ, 0 < r ∧ ∀ (total dt wf : ℝ), 0 < dt → dt ≤ r → dt ≤ wf → ∀ {N W : Nat}, Scalar.toUInt (total / dt) = some N →
      Scalar.toUInt (wf / dt) = some W → W ≠ 0 → N * dt ≤ T → ∀ en : Bool,
      ∃ K : ℝ × ℝ × ℝ → Junction ℝ, (∀ᶠ G in 𝓝 H, (J G).runSimulation total dt wf en mode = .ok () (K G)) ∧
        ∀ n, ContinuousAt (fun G => pointOf (K G).layers n) H := by
  have hl : (J H).layers = underField ls H := (plain_eq (hJ H)).1
  have ht := tame_field h H
  have hlen : (J H).layers.length = ls.length := by rw [hl, underField, List.length_map]
  have hm : ∀ l ∈ (J H).layers, l.mag.length = 1 ∧ SmoothDrivers l := by
    intro l hl'
    rw [hl] at hl'
    obtain ⟨l', a, rfl⟩ := List.mem_map.1 hl'
    obtain ⟨⟩ := hs l' a
    refine ⟨hu l' a, ?_⟩
    constructor <;> first | assumption | exact ⟨.inl rfl, .inl rfl, .inl rfl⟩
  obtain ⟨r, hr, hne⟩ := C145_short (j := J H) (fun l a => (hm l a).1) (by rw [hl]; exact ht.moment) (by rw [hl]; exact ht.quiet)
    (fun l a => (hm l a).2) (fun l a m b c _ _ _ e => by rw [ht.stt l (hl ▸ a)] at e; cases e) hT mode
  refine ⟨r, hr, fun total dt wf h0 h1 hw N W hN hW hW0 hNT en => ?_⟩
  refine C145_field h hJ h0 hw hN hW hW0 en mode H fun m hmN => ?_
  rw [← hlen]
  refine hne (m + 1) dt h0 h1 (le_trans ?_ hNT)
  have : ((m + 1 : ℕ) : ℝ) ≤ N := by exact_mod_cast hmN
  exact mul_le_mul_of_nonneg_right this h0.le

/-- One step of the precessing spin meets the hypotheses of `C145_field`, and the field moves the spin. -/
example (J : ℝ × ℝ × ℝ → Junction ℝ) (hJ : ∀ H, Junction.plain (underField [spinner ℝ] H) = .ok (J H)) :
    ∃ K : ℝ × ℝ × ℝ → Junction ℝ, (∀ᶠ G in 𝓝 (0, 0, 1), (J G).runSimulation 1.5 1 1.5 false .RK4 = .ok () (K G)) ∧
      ContinuousAt (fun G => pointOf (K G).layers 0) (0, 0, 1) := by
  have hq : ∀ l ∈ (spinJ ℝ).layers, ¬ Noisy l := spin_quiet ℝ (by simp)
  have hg : ∀ l ∈ (spinJ ℝ).layers, l.Ms * l.thickness ≠ 0 := by simp [spinJ, spinner]
  have hs : Untroubled [spinner ℝ] := ⟨hq, by simp, hg, by simp [spinner], fun l hl t => by
    obtain rfl := List.mem_singleton.1 hl
    exact spin_calm t⟩
  have c1 : Scalar.toUInt ((1.5 : ℝ) / 1) = some 1 := by
    rw [toUInt_floor _ (by norm_num) (by norm_num)]
    congr 1
    rw [Nat.floor_eq_iff (by norm_num)]; norm_num
  have eJ : J (0, 0, 1) = spinJ ℝ := by
    have h := hJ (0, 0, 1)
    have e : underField [spinner ℝ] (0, 0, 1) = [spinner ℝ] := by
      simp [underField, spinner]
    rw [e] at h
    simp only [Junction.plain, List.length_singleton, one_ne_zero, if_false, Except.ok.injEq] at h
    exact h.symm
  obtain ⟨ks, hks⟩ := runStep_real_ok (spinJ ℝ) (by simp [spinJ]) (by simpa [Layer.Guard] using hg) hq .single
    (Scalar.lit ((0 : ℕ) : ℚ) * 1 : ℝ) 1
  obtain ⟨n1, n2⟩ := quiet_step (fun _ => rfl) hq hks
  obtain ⟨-, c, hc⟩ := n2 0 (spinner ℝ) rfl
  have hst : states .single 1 (spinJ ℝ) 1 = ks.layers := by
    unfold states steps
    rw [hks]; rfl
  have hks1 : ks.layers = [((spinner ℝ).setCache c).setMag (stepU .single (spinJ ℝ).layers (Scalar.lit ((0 : ℕ) : ℚ) * 1) 1 0 (spinner ℝ)).normalize] := by
    obtain ⟨l0, hl0⟩ := List.length_eq_one_iff.1 (n1.trans rfl)
    rw [hl0] at hc ⊢
    simp only [List.getElem?_cons_zero, Option.some.injEq] at hc
    rw [hc]
  have hz : 0 < (stepU .single (spinJ ℝ).layers (Scalar.lit ((0 : ℕ) : ℚ) * 1) 1 0 (spinner ℝ)).normalize.z :=
    normalize_rises (spin_moves _ 1 one_pos)
  obtain ⟨K, k1, k2⟩ := C145_field hs hJ one_pos (by norm_num) c1 c1 one_ne_zero false .RK4 (0, 0, 1) (fun m hm l hl h => by
    obtain rfl : m = 0 := by omega
    rw [eJ] at hl
    change l ∈ states .single 1 (spinJ ℝ) 1 at hl
    rw [hst, hks1] at hl
    simp only [List.mem_singleton] at hl
    rw [hl] at h
    have := congrArg CVec.z h
    exact absurd this hz.ne')
  exact ⟨K, k1, k2 0⟩

end Junction
