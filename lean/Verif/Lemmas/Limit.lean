import Verif.Rounding
import Verif.Lemmas.Layer
import Mathlib.Topology.Algebra.Order.Field
import Mathlib.Analysis.SpecialFunctions.Trigonometric.Basic
import Mathlib.Analysis.SpecialFunctions.Exp
import Mathlib.Analysis.SpecialFunctions.Sqrt

/-!
# Arithmetics of growing precision

A family of arithmetics whose rounding errors tend to zero. `Lim R F x a` says that the numbers `x i` tend to the real
number `a`. Every operation of the model is continuous in this sense, away from its jumps.
-/

set_option linter.unusedSectionVars false

open Filter Topology

variable {ι : Type} {F : Filter ι} {T : ι → Type} [∀ i, Scalar (T i)] {u : ι → ℝ}

/-- The numbers `x i` tend to `a`. -/
def Lim (R : ∀ i, Rounding (T i) (u i)) (F : Filter ι) (x : ∀ i, T i) (a : ℝ) : Prop :=
  Tendsto (fun i => (R i).val (x i)) F (𝓝 a)

namespace Lim
variable {R : ∀ i, Rounding (T i) (u i)}

/-- helper -/
theorem of_close (hu : Tendsto u F (𝓝 0)) {f g : ι → ℝ} {a : ℝ} (h : ∀ᶠ i in F, Close (u i) (f i) (g i)) (hg : Tendsto g F (𝓝 a)) :
    Tendsto f F (𝓝 a) := by
  have h1 : Tendsto (fun i => u i * |g i|) F (𝓝 0) := by simpa using hu.mul hg.abs
  have h2 : Tendsto (fun i => f i - g i) F (𝓝 0) :=
    squeeze_zero_norm' (h.mono fun i hi => by rw [Real.norm_eq_abs]; exact hi) h1
  simpa using h2.add hg

variable (hu : Tendsto u F (𝓝 0)) {x y : ∀ i, T i} {a b : ℝ}
include hu

theorem lit (q : ℚ) : Lim R F (fun i => (Scalar.lit q : T i)) (Scalar.lit q : ℝ) :=
  of_close hu (.of_forall fun i => (R i).lit q) tendsto_const_nhds
theorem pi : Lim R F (fun i => (Scalar.pi : T i)) (Scalar.pi : ℝ) := of_close hu (.of_forall fun i => (R i).pi) tendsto_const_nhds
theorem add (hx : Lim R F x a) (hy : Lim R F y b) : Lim R F (fun i => x i + y i) (a + b) :=
  of_close hu (.of_forall fun i => (R i).add _ _) (Tendsto.add hx hy)
theorem sub (hx : Lim R F x a) (hy : Lim R F y b) : Lim R F (fun i => x i - y i) (a - b) :=
  of_close hu (.of_forall fun i => (R i).sub _ _) (Tendsto.sub hx hy)
theorem mul (hx : Lim R F x a) (hy : Lim R F y b) : Lim R F (fun i => x i * y i) (a * b) :=
  of_close hu (.of_forall fun i => (R i).mul _ _) (Tendsto.mul hx hy)
theorem div (hx : Lim R F x a) (hy : Lim R F y b) (hb : b ≠ 0) : Lim R F (fun i => x i / y i) (a / b) :=
  of_close hu ((Tendsto.eventually_ne hy hb).mono fun i hi => (R i).div _ _ hi) (Tendsto.div hx hy hb)
omit hu in
theorem neg (hx : Lim R F x a) : Lim R F (fun i => -x i) (-a) := by
  unfold Lim; simp only [(R _).neg]; exact Tendsto.neg hx
omit hu in
theorem abs (hx : Lim R F x a) : Lim R F (fun i => Scalar.abs (x i)) (Scalar.abs a) := by
  unfold Lim; simp only [(R _).abs]; exact Tendsto.abs hx
theorem powi (hx : Lim R F x a) (n : Nat) : Lim R F (fun i => Scalar.powi (x i) n) (Scalar.powi a n) :=
  of_close hu (.of_forall fun i => (R i).powi _ _) (Tendsto.pow hx n)
theorem sin (hx : Lim R F x a) : Lim R F (fun i => Scalar.sin (x i)) (Scalar.sin a) :=
  of_close hu (.of_forall fun i => (R i).sin _) ((Real.continuous_sin.tendsto a).comp hx)
theorem exp (hx : Lim R F x a) : Lim R F (fun i => Scalar.exp (x i)) (Scalar.exp a) :=
  of_close hu (.of_forall fun i => (R i).exp _) ((Real.continuous_exp.tendsto a).comp hx)
theorem sqrt (hx : Lim R F x a) (h0 : ∀ᶠ i in F, 0 ≤ (R i).val (x i)) : Lim R F (fun i => Scalar.sqrt (x i)) (Scalar.sqrt a) :=
  of_close hu (h0.mono fun i hi => (R i).sqrt _ hi) ((Real.continuous_sqrt.tendsto a).comp hx)
/-- a choice whose two sides agree in the limit -/
theorem ite {c : ∀ _ : ι, Bool} {z : ∀ i, T i} (hx : Lim R F x a) (hz : Lim R F z a) : Lim R F (fun i => if c i = true then x i else z i) a := by
  unfold Lim at *
  rw [Metric.tendsto_nhds] at *
  intro ε hε
  filter_upwards [hx ε hε, hz ε hε] with i h1 h2
  split <;> assumption
omit hu in
theorem congr {z : ∀ i, T i} (hx : Lim R F x a) (h : ∀ᶠ i in F, x i = z i) : Lim R F z a :=
  Tendsto.congr' (h.mono fun i hi => by simp only [hi]) hx
omit hu in
theorem leb (hx : Lim R F x a) (hy : Lim R F y b) (h : a ≠ b) : ∀ᶠ i in F, Scalar.leb (x i) (y i) = Scalar.leb a b := by
  simp only [(R _).leb, Scalar.leb_real]
  rcases lt_or_gt_of_ne h with h | h
  · filter_upwards [Tendsto.eventually_lt hx hy h] with i hi
    rw [decide_eq_true hi.le, decide_eq_true h.le]
  · filter_upwards [Tendsto.eventually_lt hy hx h] with i hi
    rw [decide_eq_false (not_le.2 hi), decide_eq_false (not_le.2 h)]
omit hu in
theorem ltb (hx : Lim R F x a) (hy : Lim R F y b) (h : a ≠ b) : ∀ᶠ i in F, Scalar.ltb (x i) (y i) = Scalar.ltb a b := by
  simp only [(R _).ltb, Scalar.ltb_real]
  rcases lt_or_gt_of_ne h with h | h
  · filter_upwards [Tendsto.eventually_lt hx hy h] with i hi
    rw [decide_eq_true hi, decide_eq_true h]
  · filter_upwards [Tendsto.eventually_lt hy hx h] with i hi
    rw [decide_eq_false (not_lt.2 hi.le), decide_eq_false (not_lt.2 h.le)]
omit hu in
theorem eqb (hx : Lim R F x a) (hy : Lim R F y b) (h : a ≠ b) : ∀ᶠ i in F, Scalar.eqb (x i) (y i) = false := by
  simp only [(R _).eqb, Scalar.eqb_real]
  have : Tendsto (fun i => (R i).val (x i) - (R i).val (y i)) F (𝓝 (a - b)) := Tendsto.sub hx hy
  filter_upwards [this.eventually_ne (sub_ne_zero.2 h)] with i hi
  exact decide_eq_false (sub_ne_zero.1 hi)
end Lim

/-- The vectors `v i` tend to `w`. -/
structure VLim (R : ∀ i, Rounding (T i) (u i)) (F : Filter ι) (v : ∀ i, CVec (T i)) (w : CVec ℝ) : Prop where
  x : Lim R F (fun i => (v i).x) w.x
  y : Lim R F (fun i => (v i).y) w.y
  z : Lim R F (fun i => (v i).z) w.z

namespace VLim
variable {R : ∀ i, Rounding (T i) (u i)} (hu : Tendsto u F (𝓝 0)) {v w : ∀ i, CVec (T i)} {p q : CVec ℝ} {s : ∀ i, T i} {a : ℝ}
include hu

theorem zero : VLim R F (fun i => (CVec.zero : CVec (T i))) (CVec.zero : CVec ℝ) := ⟨.lit hu _, .lit hu _, .lit hu _⟩
theorem add (hv : VLim R F v p) (hw : VLim R F w q) : VLim R F (fun i => v i + w i) (p + q) :=
  ⟨.add hu hv.x hw.x, .add hu hv.y hw.y, .add hu hv.z hw.z⟩
theorem sub (hv : VLim R F v p) (hw : VLim R F w q) : VLim R F (fun i => v i - w i) (p - q) :=
  ⟨.sub hu hv.x hw.x, .sub hu hv.y hw.y, .sub hu hv.z hw.z⟩
theorem mulr (hv : VLim R F v p) (hs : Lim R F s a) : VLim R F (fun i => v i * s i) (p * a) :=
  ⟨.mul hu hv.x hs, .mul hu hv.y hs, .mul hu hv.z hs⟩
theorem mull (hs : Lim R F s a) (hv : VLim R F v p) : VLim R F (fun i => s i * v i) (a * p) :=
  ⟨.mul hu hs hv.x, .mul hu hs hv.y, .mul hu hs hv.z⟩
theorem divU (hv : VLim R F v p) (hs : Lim R F s a) (h : a ≠ 0) : VLim R F (fun i => (v i).divU (s i)) (p.divU a) :=
  ⟨.div hu hv.x hs h, .div hu hv.y hs h, .div hu hv.z hs h⟩
theorem dot (hv : VLim R F v p) (hw : VLim R F w q) : Lim R F (fun i => (v i).dot (w i)) (p.dot q) :=
  .add hu (.add hu (.mul hu hv.x hw.x) (.mul hu hv.y hw.y)) (.mul hu hv.z hw.z)
theorem cross (hv : VLim R F v p) (hw : VLim R F w q) : VLim R F (fun i => (v i).cross (w i)) (p.cross q) :=
  ⟨.sub hu (.mul hu hv.y hw.z) (.mul hu hv.z hw.y), .sub hu (.mul hu hv.z hw.x) (.mul hu hv.x hw.z),
    .sub hu (.mul hu hv.x hw.y) (.mul hu hv.y hw.x)⟩

/-- helper: rounded squares are not negative once the error is below one -/
theorem squares_nonneg (v : ∀ i, CVec (T i)) :
    ∀ᶠ i in F, 0 ≤ (R i).val (Scalar.powi (v i).x 2 + Scalar.powi (v i).y 2 + Scalar.powi (v i).z 2) := by
  have key : ∀ {c x y : ℝ}, c ≤ 1 → Close c x y → 0 ≤ y → 0 ≤ x := by
    intro c x y hc h hy
    unfold Close at h
    rw [abs_of_nonneg hy, abs_le] at h
    nlinarith [h.1]
  filter_upwards [hu.eventually_le_const (show (0 : ℝ) < 1 by norm_num)] with i hi
  have p := fun a : T i => key hi ((R i).powi a 2) (sq_nonneg _)
  exact key hi ((R i).add _ _) (add_nonneg (key hi ((R i).add _ _) (add_nonneg (p _) (p _))) (p _))

theorem length (hv : VLim R F v p) : Lim R F (fun i => (v i).length) p.length :=
  .sqrt hu (.add hu (.add hu (.powi hu hv.x 2) (.powi hu hv.y 2)) (.powi hu hv.z 2)) (squares_nonneg hu v)

theorem normalize (hv : VLim R F v p) (h : p.length ≠ 0) : VLim R F (fun i => (v i).normalize) p.normalize := by
  have hl := hv.length hu
  have e : ∀ᶠ i in F, (v i).normalize = (v i).divU (v i).length := by
    have := Lim.eqb hl (Lim.lit hu 0) (by simpa using h)
    filter_upwards [this] with i hi
    unfold CVec.normalize
    rw [if_neg (by rw [Bool.not_eq_true]; exact hi)]; rfl
  have e' : p.normalize = p.divU p.length := by
    unfold CVec.normalize
    rw [if_neg (by simpa using h)]; rfl
  rw [e']
  have hd := hv.divU hu hl h
  exact ⟨hd.x.congr (e.mono fun i hi => by rw [hi]), hd.y.congr (e.mono fun i hi => by rw [hi]),
    hd.z.congr (e.mono fun i hi => by rw [hi])⟩
end VLim

/-- The drivers `d i` are of the same kind as `e` and their parameters tend to those of `e`. -/
structure DLim (R : ∀ i, Rounding (T i) (u i)) (F : Filter ι) (d : ∀ i, ScalarDriver (T i)) (e : ScalarDriver ℝ) : Prop where
  update : ∀ i, (d i).update = e.update
  constantValue : Lim R F (fun i => (d i).constantValue) e.constantValue
  amplitude : Lim R F (fun i => (d i).amplitude) e.amplitude
  frequency : Lim R F (fun i => (d i).frequency) e.frequency
  phase : Lim R F (fun i => (d i).phase) e.phase
  period : Lim R F (fun i => (d i).period) e.period
  cycle : Lim R F (fun i => (d i).cycle) e.cycle
  timeStart : Lim R F (fun i => (d i).timeStart) e.timeStart
  timeStop : Lim R F (fun i => (d i).timeStop) e.timeStop
  edgeTime : Lim R F (fun i => (d i).edgeTime) e.edgeTime
  steadyTime : Lim R F (fun i => (d i).steadyTime) e.steadyTime

namespace Spec

/-- The driver has no jump at time `t`. Pulses, steps and trapezoids are kept away from their corners. No constructor makes
a `gaussstep`. -/
def NoJump (e : ScalarDriver ℝ) (t : ℝ) : Prop :=
  match e.update with
  | .constant | .sine | .posine | .halfsine => True
  | .gaussimpulse => e.edgeTime ≠ 0
  | .step => t ≠ e.timeStart ∧ t ≠ e.timeStop
  | .trapezoid => e.edgeTime ≠ 0 ∧ t ≠ e.timeStart ∧ t ≠ e.timeStart + e.edgeTime ∧ t ≠ e.timeStart + e.edgeTime + e.steadyTime ∧
      t ≠ e.timeStart + 2 * e.edgeTime + e.steadyTime
  | .pulse => e.period ≠ 0 ∧ |t / e.period| < 2147483648 ∧ ∀ n : ℤ, t ≠ n * e.period ∧ t ≠ n * e.period + e.cycle * e.period
  | .gaussstep => False

end Spec

/-- The oscillating term of the sines. -/
def ScalarDriver.osc {T : Type} [Scalar T] (d : ScalarDriver T) (t : T) : T :=
  d.amplitude * Scalar.sin (2 * Scalar.pi * t * d.frequency + d.phase)

/-- Truncation is locally constant away from the integers. -/
theorem Lim.toInt {R : ∀ i, Rounding (T i) (u i)} {x : ∀ i, T i} {a : ℝ} (hx : Lim R F x a) (h : ∀ n : ℤ, a ≠ n) (hb : |a| < 2147483648) :
    ∀ᶠ i in F, Scalar.toInt (x i) = Scalar.toInt a := by
  have hlo : (⌊a⌋ : ℝ) < a := lt_of_le_of_ne (Int.floor_le a) (h _).symm
  have hhi : a < (⌊a⌋ : ℝ) + 1 := Int.lt_floor_add_one a
  have hb' := abs_lt.1 hb
  have key : ∀ v : ℝ, (⌊a⌋ : ℝ) < v → v < (⌊a⌋ : ℝ) + 1 → -2147483648 < v → v < 2147483648 →
      Scalar.toInt v = some (if 0 ≤ ⌊a⌋ then ⌊a⌋ else ⌊a⌋ + 1) := by
    intro v h1 h2 h3 h4
    change (if _ then _ else _) = _
    rw [if_pos ⟨by linarith, h4⟩]
    unfold Scalar.truncR
    by_cases hf : 0 ≤ ⌊a⌋
    · have : (0 : ℝ) ≤ ⌊a⌋ := by exact_mod_cast hf
      rw [if_pos hf, if_pos (by linarith)]
      congr 1
      exact Int.floor_eq_iff.2 ⟨h1.le, h2⟩
    · have : ((⌊a⌋ : ℤ) : ℝ) + 1 ≤ 0 := by
        have : ⌊a⌋ + 1 ≤ 0 := by omega
        exact_mod_cast this
      rw [if_neg hf, if_neg (by linarith)]
      congr 1
      refine Int.ceil_eq_iff.2 ⟨?_, ?_⟩
      · push_cast; linarith
      · push_cast; exact h2.le
  filter_upwards [hx.eventually (lt_mem_nhds hlo), hx.eventually (gt_mem_nhds hhi), hx.eventually (lt_mem_nhds hb'.1),
    hx.eventually (gt_mem_nhds hb'.2)] with i h1 h2 h3 h4
  rw [(R i).toInt, key _ h1 h2 h3 h4, key a hlo hhi hb'.1 hb'.2]

namespace DLim
open Spec
variable {R : ∀ i, Rounding (T i) (u i)} (hu : Tendsto u F (𝓝 0)) {d : ∀ i, ScalarDriver (T i)} {e : ScalarDriver ℝ} {t : ∀ i, T i} {s : ℝ}
include hu

theorem osc (h : DLim R F d e) (ht : Lim R F t s) : Lim R F (fun i => (d i).osc (t i)) (e.osc s) :=
  .mul hu h.amplitude (.sin hu (.add hu (.mul hu (.mul hu (.mul hu (.lit hu _) (.pi hu)) ht) h.frequency) h.phase))

theorem value (h : DLim R F d e) (ht : Lim R F t s) (hs : NoJump e s) : Lim R F (fun i => (d i).value (t i)) (e.value s) := by
  unfold ScalarDriver.value
  simp only [h.update]
  unfold NoJump at hs
  cases hk : e.update <;> simp only [hk] at hs ⊢
  case constant => exact h.constantValue
  case sine => exact .add hu h.constantValue (h.osc hu ht)
  case posine => exact .add hu h.constantValue (.abs (h.osc hu ht))
  case halfsine =>
    have hw := h.osc hu ht
    change Lim R F (fun i => if Scalar.leb ((d i).osc (t i)) (Scalar.lit 0) = true then (d i).constantValue + (d i).osc (t i) else (d i).constantValue)
      (if Scalar.leb (e.osc s) (Scalar.lit 0) = true then e.constantValue + e.osc s else e.constantValue)
    generalize e.osc s = w at hw ⊢
    by_cases h0 : w = 0
    · have e0 : (if Scalar.leb w (Scalar.lit 0) = true then e.constantValue + w else e.constantValue) = e.constantValue := by
        rw [h0, add_zero]; split <;> rfl
      rw [e0]
      refine .ite hu ?_ h.constantValue
      have := Lim.add hu h.constantValue hw
      rwa [h0, add_zero] at this
    · have hb := Lim.leb hw (Lim.lit hu 0) (by simpa using h0)
      by_cases hc : Scalar.leb w (Scalar.lit 0) = true
      · rw [if_pos hc]
        refine (Lim.add hu h.constantValue hw).congr ?_
        filter_upwards [hb] with i hi
        rw [if_pos (hi.trans hc)]
      · rw [if_neg hc]
        refine h.constantValue.congr ?_
        filter_upwards [hb] with i hi
        rw [if_neg (fun hp => hc (hi.symm.trans hp))]
  case step =>
    refine .add hu h.constantValue ?_
    unfold ScalarDriver.stepUpdate
    have h1 := Lim.leb h.timeStart ht hs.1.symm
    have h2 := Lim.leb ht h.timeStop hs.2
    split
    · rename_i hc
      refine h.amplitude.congr ?_
      filter_upwards [h1, h2] with i a b
      rw [if_pos (by rw [a, b]; exact hc)]
    · rename_i hc
      refine (Lim.lit hu 0).congr ?_
      filter_upwards [h1, h2] with i a b
      rw [if_neg (by rw [a, b]; exact hc)]; rfl
  case pulse =>
    obtain ⟨p0, pb, pn⟩ := hs
    refine .add hu h.constantValue ?_
    unfold ScalarDriver.pulseTrain ScalarDriver.pulseTrain?
    have hq := Lim.toInt (Lim.div hu ht h.period p0) (fun n e => (pn n).1 ((div_eq_iff p0).1 e)) pb
    rcases hn : Scalar.toInt (s / e.period) with _ | n
    · dsimp only
      refine (Lim.lit hu 0).congr (hq.mono fun i a => ?_)
      rw [a, hn]; rfl
    · dsimp only
      have l1 := Lim.mul hu (Lim.lit hu (n : ℚ)) h.period
      have l2 := Lim.add hu l1 (.mul hu h.cycle h.period)
      have b1 := Lim.leb l1 ht (by simpa using (pn n).1.symm)
      have b2 := Lim.leb ht l2 (by simpa using (pn n).2)
      split
      · rename_i hc
        refine h.amplitude.congr ?_
        filter_upwards [hq, b1, b2] with i a a1 a2
        rw [a, hn]
        dsimp only
        rw [if_pos (by rw [a1, a2]; exact hc)]; rfl
      · rename_i hc
        refine (Lim.lit hu 0).congr ?_
        filter_upwards [hq, b1, b2] with i a a1 a2
        rw [a, hn]
        dsimp only
        rw [if_neg (by rw [a1, a2]; exact hc)]; rfl
  case trapezoid =>
    obtain ⟨e0, c1, c2, c3, c4⟩ := hs
    refine .add hu h.constantValue ?_
    unfold ScalarDriver.trapezoidalUpdate
    have l2 : Lim R F (fun i => (d i).timeStart + (d i).edgeTime) (e.timeStart + e.edgeTime) := .add hu h.timeStart h.edgeTime
    have l3 := Lim.add hu l2 h.steadyTime
    have l4 : Lim R F (fun i => (d i).timeStart + 2 * (d i).edgeTime + (d i).steadyTime) (e.timeStart + 2 * e.edgeTime + e.steadyTime) :=
      .add hu (.add hu h.timeStart (.mul hu (.lit hu _) h.edgeTime)) h.steadyTime
    have lr := Lim.div hu h.amplitude h.edgeTime e0
    have b1 := Lim.ltb ht h.timeStart c1
    have b2 := Lim.leb ht l2 c2
    have b3 := Lim.leb ht l3 c3
    have b4 := Lim.leb ht l4 (by simpa using c4)
    split
    · rename_i hc
      refine (Lim.lit hu 0).congr ?_
      filter_upwards [b1] with i a1
      rw [if_pos (a1.trans hc)]; rfl
    rename_i n1
    split
    · rename_i hc
      refine (Lim.mul hu lr (.sub hu ht h.timeStart)).congr ?_
      filter_upwards [b1, b2] with i a1 a2
      rw [if_neg (a1 ▸ n1), if_pos (a2.trans hc)]
    rename_i n2
    split
    · rename_i hc
      refine h.amplitude.congr ?_
      filter_upwards [b1, b2, b3] with i a1 a2 a3
      rw [if_neg (a1 ▸ n1), if_neg (a2 ▸ n2), if_pos (a3.trans hc)]
    rename_i n3
    split
    · rename_i hc
      refine (Lim.sub hu h.amplitude (.mul hu lr (.sub hu ht l3))).congr ?_
      filter_upwards [b1, b2, b3, b4] with i a1 a2 a3 a4
      rw [if_neg (a1 ▸ n1), if_neg (a2 ▸ n2), if_neg (a3 ▸ n3), if_pos (a4.trans hc)]
    · rename_i hc
      refine (Lim.lit hu 0).congr ?_
      filter_upwards [b1, b2, b3, b4] with i a1 a2 a3 a4
      rw [if_neg (a1 ▸ n1), if_neg (a2 ▸ n2), if_neg (a3 ▸ n3), if_neg (a4 ▸ hc)]; rfl
  case gaussimpulse =>
    refine .add hu h.constantValue (.mul hu h.amplitude (.exp hu (.div hu (.neg (.powi hu (.sub hu ht h.timeStart) 2))
      (.mul hu (.lit hu _) (.powi hu h.edgeTime 2)) ?_)))
    simpa using hs
end DLim

/-- Three drivers, one for each component. -/
structure ALim (R : ∀ i, Rounding (T i) (u i)) (F : Filter ι) (d : ∀ i, AxialDriver (T i)) (e : AxialDriver ℝ) : Prop where
  dx : DLim R F (fun i => (d i).dx) e.dx
  dy : DLim R F (fun i => (d i).dy) e.dy
  dz : DLim R F (fun i => (d i).dz) e.dz

namespace Spec
/-- No component has a jump at time `t`. -/
def NoJumps (e : AxialDriver ℝ) (t : ℝ) : Prop := NoJump e.dx t ∧ NoJump e.dy t ∧ NoJump e.dz t
end Spec

theorem ALim.value {R : ∀ i, Rounding (T i) (u i)} (hu : Tendsto u F (𝓝 0)) {d : ∀ i, AxialDriver (T i)} {e : AxialDriver ℝ}
    {t : ∀ i, T i} {s : ℝ} (h : ALim R F d e) (ht : Lim R F t s) (hs : Spec.NoJumps e s) :
    VLim R F (fun i => (d i).value (t i)) (e.value s) :=
  ⟨h.dx.value hu ht hs.1, h.dy.value hu ht hs.2.1, h.dz.value hu ht hs.2.2⟩

/-- Tensors. -/
structure TLim (R : ∀ i, Rounding (T i) (u i)) (F : Filter ι) (d : ∀ i, Tensor (T i)) (e : Tensor ℝ) : Prop where
  r0 : VLim R F (fun i => (d i).r0) e.r0
  r1 : VLim R F (fun i => (d i).r1) e.r1
  r2 : VLim R F (fun i => (d i).r2) e.r2

theorem TLim.interaction {R : ∀ i, Rounding (T i) (u i)} (hu : Tendsto u F (𝓝 0)) {d : ∀ i, Tensor (T i)} {e : Tensor ℝ}
    {m : ∀ i, CVec (T i)} {p : CVec ℝ} {Ms : ∀ i, T i} {M : ℝ} (h : TLim R F d e) (hm : VLim R F m p) (hM : Lim R F Ms M) :
    VLim R F (fun i => Tensor.interaction (m i) (d i) (Ms i)) (Tensor.interaction p e M) := by
  have hc : Lim R F (fun i => Ms i / (Const.mu0 : T i)) (M / (Const.mu0 : ℝ)) := .div hu hM (.lit hu _) (by simp [Const.mu0])
  have row : ∀ {r : ∀ i, CVec (T i)} {q : CVec ℝ}, VLim R F r q →
      Lim R F (fun i => (r i).x * (m i).x + (r i).y * (m i).y + (r i).z * (m i).z) (q.x * p.x + q.y * p.y + q.z * p.z) :=
    fun hr => .add hu (.add hu (.mul hu hr.x hm.x) (.mul hu hr.y hm.y)) (.mul hu hr.z hm.z)
  exact ⟨.mul hu (row h.r0) hc, .mul hu (row h.r1) hc, .mul hu (row h.r2) hc⟩

/-- Layers of the same kind with the same flags, whose parameters, drivers and magnetisations tend to those of `l`. -/
structure LLim (R : ∀ i, Rounding (T i) (u i)) (F : Filter ι) (L : ∀ i, Layer (T i)) (l : Layer ℝ) : Prop where
  IECDriverTop : DLim R F (fun i => (L i).IECDriverTop) l.IECDriverTop
  IECDriverBottom : DLim R F (fun i => (L i).IECDriverBottom) l.IECDriverBottom
  IECQuadDriverTop : DLim R F (fun i => (L i).IECQuadDriverTop) l.IECQuadDriverTop
  IECQuadDriverBottom : DLim R F (fun i => (L i).IECQuadDriverBottom) l.IECQuadDriverBottom
  IDMIDriverTop : ALim R F (fun i => (L i).IDMIDriverTop) l.IDMIDriverTop
  IDMIDriverBottom : ALim R F (fun i => (L i).IDMIDriverBottom) l.IDMIDriverBottom
  HreservedDriver : ALim R F (fun i => (L i).HreservedDriver) l.HreservedDriver
  currentDriver : DLim R F (fun i => (L i).currentDriver) l.currentDriver
  anisotropyDriver : DLim R F (fun i => (L i).anisotropyDriver) l.anisotropyDriver
  fieldLikeTorqueDriver : DLim R F (fun i => (L i).fieldLikeTorqueDriver) l.fieldLikeTorqueDriver
  dampingLikeTorqueDriver : DLim R F (fun i => (L i).dampingLikeTorqueDriver) l.dampingLikeTorqueDriver
  externalFieldDriver : ALim R F (fun i => (L i).externalFieldDriver) l.externalFieldDriver
  HoeDriver : ALim R F (fun i => (L i).HoeDriver) l.HoeDriver
  HdmiDriver : ALim R F (fun i => (L i).HdmiDriver) l.HdmiDriver
  id : ∀ i, (L i).id = l.id
  temperatureSet : ∀ i, (L i).temperatureSet = l.temperatureSet
  alternativeSTTSet : ∀ i, (L i).alternativeSTTSet = l.alternativeSTTSet
  referenceType : ∀ i, (L i).referenceType = l.referenceType
  includeSTT : ∀ i, (L i).includeSTT = l.includeSTT
  includeSOT : ∀ i, (L i).includeSOT = l.includeSOT
  dynamicSOT : ∀ i, (L i).dynamicSOT = l.dynamicSOT
  Ms : Lim R F (fun i => (L i).Ms) l.Ms
  thickness : Lim R F (fun i => (L i).thickness) l.thickness
  mag : VLim R F (fun i => (L i).mag) l.mag
  anis : VLim R F (fun i => (L i).anis) l.anis
  referenceLayer : VLim R F (fun i => (L i).referenceLayer) l.referenceLayer
  demagTensor : TLim R F (fun i => (L i).demagTensor) l.demagTensor
  dipoleBottom : TLim R F (fun i => (L i).dipoleBottom) l.dipoleBottom
  dipoleTop : TLim R F (fun i => (L i).dipoleTop) l.dipoleTop
  damping : Lim R F (fun i => (L i).damping) l.damping
  fieldLikeTorque : Lim R F (fun i => (L i).fieldLikeTorque) l.fieldLikeTorque
  dampingLikeTorque : Lim R F (fun i => (L i).dampingLikeTorque) l.dampingLikeTorque
  slonczewski : Lim R F (fun i => (L i).slonczewski) l.slonczewski
  beta : Lim R F (fun i => (L i).beta) l.beta
  kappa : Lim R F (fun i => (L i).kappa) l.kappa
  spinPolarisation : Lim R F (fun i => (L i).spinPolarisation) l.spinPolarisation

namespace Spec
/-- No driver of the layer has a jump at time `t`. -/
structure Calm (l : Layer ℝ) (t : ℝ) : Prop where
  IECDriverTop : NoJump l.IECDriverTop t
  IECDriverBottom : NoJump l.IECDriverBottom t
  IECQuadDriverTop : NoJump l.IECQuadDriverTop t
  IECQuadDriverBottom : NoJump l.IECQuadDriverBottom t
  IDMIDriverTop : NoJumps l.IDMIDriverTop t
  IDMIDriverBottom : NoJumps l.IDMIDriverBottom t
  HreservedDriver : NoJumps l.HreservedDriver t
  currentDriver : NoJump l.currentDriver t
  anisotropyDriver : NoJump l.anisotropyDriver t
  fieldLikeTorqueDriver : NoJump l.fieldLikeTorqueDriver t
  dampingLikeTorqueDriver : NoJump l.dampingLikeTorqueDriver t
  externalFieldDriver : NoJumps l.externalFieldDriver t
  HoeDriver : NoJumps l.HoeDriver t
  HdmiDriver : NoJumps l.HdmiDriver t

/-- The efficiency of the spin transfer torque is finite at `m` with the polariser `p`. -/
def Finite (l : Layer ℝ) (m p : CVec ℝ) : Prop :=
  l.includeSTT = true → if l.alternativeSTTSet = true then 1 + l.slonczewski * m.dot p ≠ 0
    else l.slonczewski ^ 2 + 1 + (l.slonczewski ^ 2 - 1) * m.dot p ≠ 0

/-- The equation of motion is continuous at this point. -/
def SmoothAt (l : Layer ℝ) (t : ℝ) (m below above : CVec ℝ) : Prop := Calm l t ∧ Finite l m (l.reference below above)
end Spec

namespace LLim
open Spec
variable {R : ∀ i, Rounding (T i) (u i)} (hu : Tendsto u F (𝓝 0)) {L : ∀ i, Layer (T i)} {l : Layer ℝ} {t : ∀ i, T i} {s : ℝ}
  {m b a dip h : ∀ i, CVec (T i)} {p pb pa pd q : CVec ℝ}

theorem guard_ne {l : Layer ℝ} (hg : l.Guard) : l.Ms * l.thickness ≠ 0 := by
  unfold Layer.Guard at hg
  simpa using hg

theorem reference (hL : LLim R F L l) (hu : Tendsto u F (𝓝 0)) (hb : VLim R F b pb) (ha : VLim R F a pa) :
    VLim R F (fun i => (L i).reference (b i) (a i)) (l.reference pb pa) := by
  unfold Layer.reference
  simp only [hL.referenceType]
  cases l.referenceType
  · exact .zero hu
  · exact hL.referenceLayer
  · exact ha
  · exact hb

include hu

theorem iecV (hL : LLim R F L l) (hg : l.Guard) {J J2 : ∀ i, T i} {c c2 : ℝ} (h1 : Lim R F J c) (h2 : Lim R F J2 c2) (hm : VLim R F m p)
    (hb : VLim R F b pb) : VLim R F (fun i => (L i).iecV (J i) (J2 i) (m i) (b i)) (l.iecV c c2 p pb) :=
  .divU hu (.mulr hu hb (.add hu h1 (.mul hu (.mul hu (.lit hu _) h2) (hb.dot hu hm)))) (.mul hu hL.Ms hL.thickness) (guard_ne hg)

theorem idmiV (hL : LLim R F L l) (hg : l.Guard) (hm : VLim R F m p) (hb : VLim R F b pb) :
    VLim R F (fun i => (L i).idmiV (m i) (b i)) (l.idmiV p pb) :=
  .divU hu ⟨hm.dot hu ⟨.lit hu _, .neg hb.z, hb.y⟩, hm.dot hu ⟨hb.z, .lit hu _, .neg hb.x⟩, hm.dot hu ⟨.neg hb.y, hb.x, .lit hu _⟩⟩
    (.mul hu hL.Ms hL.thickness) (guard_ne hg)

theorem anisotropyField (hL : LLim R F L l) (hg : l.Guard) {K : ∀ i, T i} {c : ℝ} (hK : Lim R F K c) (hm : VLim R F m p) :
    VLim R F (fun i => (L i).anisotropyField (K i) (m i)) (l.anisotropyField c p) :=
  .mulr hu hL.anis (.div hu (.mul hu (.mul hu (.lit hu _) hK) (hL.anis.dot hu hm)) hL.Ms (left_ne_zero_of_mul (guard_ne hg)))

theorem heffV (hL : LLim R F L l) (hg : l.Guard) (hc : Calm l s) (ht : Lim R F t s) (hm : VLim R F m p) (hb : VLim R F b pb) (ha : VLim R F a pa)
    (hd : VLim R F dip pd) : VLim R F (fun i => (L i).heffV (t i) (m i) (b i) (a i) (dip i) .zero) (l.heffV s p pb pa pd .zero) := by
  unfold Layer.heffV
  refine .add hu (.sub hu (.sub hu (.add hu (.add hu (.add hu (.add hu (.add hu (.add hu ?_ ?_) (.add hu ?_ ?_)) (.add hu ?_ ?_)) ?_) ?_) ?_) ?_) hd) ?_
  · exact hL.externalFieldDriver.value hu ht hc.externalFieldDriver
  · exact hL.anisotropyField hu hg (hL.anisotropyDriver.value hu ht hc.anisotropyDriver) hm
  · exact hL.iecV hu hg (hL.IECDriverBottom.value hu ht hc.IECDriverBottom) (hL.IECQuadDriverBottom.value hu ht hc.IECQuadDriverBottom) hm hb
  · exact hL.iecV hu hg (hL.IECDriverTop.value hu ht hc.IECDriverTop) (hL.IECQuadDriverTop.value hu ht hc.IECQuadDriverTop) hm ha
  · exact hL.idmiV hu hg (hL.IDMIDriverBottom.value hu ht hc.IDMIDriverBottom) hb
  · exact hL.idmiV hu hg (hL.IDMIDriverTop.value hu ht hc.IDMIDriverTop) ha
  · exact hL.HoeDriver.value hu ht hc.HoeDriver
  · exact hL.HdmiDriver.value hu ht hc.HdmiDriver
  · exact .zero hu
  · exact hL.demagTensor.interaction hu hm hL.Ms
  · exact hL.HreservedDriver.value hu ht hc.HreservedDriver

theorem sttEta (hL : LLim R F L l) (hm : VLim R F m p) (hb : VLim R F b pb) (hs : l.includeSTT = true) (hf : Finite l p pb) :
    Lim R F (fun i => (L i).sttEta (m i) (b i)) (l.sttEta p pb) := by
  have hf := hf hs
  unfold Layer.sttEta
  simp only [hL.alternativeSTTSet]
  by_cases h : l.alternativeSTTSet = true
  · rw [if_pos h] at hf
    simp only [h, if_true]
    exact .div hu hL.spinPolarisation (.add hu (.lit hu _) (.mul hu hL.slonczewski (hm.dot hu hb))) (by simpa using hf)
  · rw [if_neg h] at hf
    simp only [h]
    have hq := Lim.powi hu hL.slonczewski 2
    exact .div hu (.mul hu hL.spinPolarisation hq)
      (.add hu (.add hu hq (.lit hu _)) (.mul hu (.sub hu hq (.lit hu _)) (hm.dot hu hb))) (by simpa using hf)

theorem gyro : Lim R F (fun i => (Const.gyro : T i)) (Const.gyro : ℝ) := .lit hu _

theorem solveLLG (hL : LLim R F L l) (hg : l.Guard) (hc : SmoothAt l s p pb pa) (ht : Lim R F t s) (hm : VLim R F m p) (hb : VLim R F b pb)
    (ha : VLim R F a pa) (hh : VLim R F h q) :
    VLim R F (fun i => ((L i).solveLLG (t i) (m i) (b i) (a i) (h i)).1) (l.solveLLG s p pb pa q).1 := by
  have hprod := hm.cross hu hh
  have hprod2 := hm.cross hu hprod
  have hconv : Lim R F (fun i => (1 : T i) / (1 + Scalar.powi (L i).damping 2)) ((Scalar.lit 1 : ℝ) / (Scalar.lit 1 + Scalar.powi l.damping 2)) :=
    .div hu (.lit hu _) (.add hu (.lit hu _) (.powi hu hL.damping 2)) (by
      simp only [Scalar.lit_real, Scalar.powi_real]; push_cast; positivity)
  have hdm := hprod.add hu (hprod2.mulr hu hL.damping)
  have href := hL.reference hu hb ha
  have hcur := hL.currentDriver.value hu ht hc.1.currentDriver
  unfold Layer.solveLLG
  simp only [hL.includeSTT, hL.includeSOT, hL.dynamicSOT]
  by_cases h1 : l.includeSTT = true
  · simp only [h1, if_true]
    have hbar : Lim R F (fun i => (Const.hbar : T i)) (Const.hbar : ℝ) := .div hu (.lit hu _) (.mul hu (.lit hu _) (.pi hu)) (by
      simp [Real.pi_ne_zero])
    have haJ : Lim R F (fun i => (Const.hbar * (L i).currentDriver.value (t i) / (Const.electronCharge * (L i).Ms * (L i).thickness) : T i))
        (Const.hbar * l.currentDriver.value s / (Const.electronCharge * l.Ms * l.thickness)) :=
      .div hu (.mul hu hbar hcur) (.mul hu (.mul hu (.lit hu _) hL.Ms) hL.thickness) (by
        rw [mul_assoc]
        exact mul_ne_zero (by simp [Const.electronCharge]) (guard_ne hg))
    have hstt := Lim.mul hu (Lim.mul hu (gyro hu) haJ) (hL.sttEta hu hm href h1 hc.2)
    have hfl := hm.cross hu href
    have hdl := hm.cross hu hfl
    exact .mulr hu (.add hu (.add hu (.mulr hu hdm (.neg (gyro hu))) (.mulr hu (.mulr hu hdl (.neg hstt)) hL.kappa)) (.mulr hu (.mulr hu hfl hstt) hL.beta)) hconv
  · simp only [h1]
    by_cases h2 : l.includeSOT = true
    · simp only [h2, if_true]
      have hcm := hm.cross hu href
      have hccm := hm.cross hu hcm
      by_cases h3 : l.dynamicSOT = true
      · simp only [h3, if_true]
        have d1 := hL.dampingLikeTorqueDriver.value hu ht hc.1.dampingLikeTorqueDriver
        have f1 := hL.fieldLikeTorqueDriver.value hu ht hc.1.fieldLikeTorqueDriver
        exact .mulr hu (.mulr hu (.add hu (.add hu hdm (.mulr hu hcm (.sub hu f1 (.mul hu hL.damping d1))))
          (.mulr hu hccm (.add hu d1 (.mul hu hL.damping f1)))) (.neg (gyro hu))) hconv
      · simp only [h3]
        have d1 := Lim.mul hu hL.dampingLikeTorque hcur
        have f1 := Lim.mul hu hL.fieldLikeTorque hcur
        exact .mulr hu (.mulr hu (.add hu (.add hu hdm (.mulr hu hcm (.sub hu f1 (.mul hu hL.damping d1))))
          (.mulr hu hccm (.add hu d1 (.mul hu hL.damping f1)))) (.neg (gyro hu))) hconv
    · simp only [h2]
      exact .mulr hu (.mulr hu hdm (.neg (gyro hu))) hconv

theorem llgV (hL : LLim R F L l) (hg : l.Guard) (hc : SmoothAt l s p pb pa) (ht : Lim R F t s) (hm : VLim R F m p) (hb : VLim R F b pb)
    (ha : VLim R F a pa) : VLim R F (fun i => (L i).llgV (t i) (m i) (b i) (a i)) (l.llgV s p pb pa) :=
  hL.solveLLG hu hg hc ht hm hb ha (hL.heffV hu hg hc.1 ht hm hb ha
    (.add hu (hL.dipoleBottom.interaction hu hb hL.Ms) (hL.dipoleTop.interaction hu ha hL.Ms)))
end LLim
