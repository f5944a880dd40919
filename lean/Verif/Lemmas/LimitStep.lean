import Verif.Lemmas.Limit
import Verif.Lemmas.QuietStep

/-! Limits of solver steps in arithmetics of growing precision. -/

set_option linter.unusedSectionVars false

open Filter Topology

variable {ι : Type} {F : Filter ι} {T : ι → Type} [∀ i, Scalar (T i)] {u : ι → ℝ}

/-- Junctions with the same number of layers, whose layers tend to those of `j`. -/
structure JLim (R : ∀ i, Rounding (T i) (u i)) (F : Filter ι) (J : ∀ i, Junction (T i)) (j : Junction ℝ) : Prop where
  length : ∀ᶠ i in F, (J i).layers.length = j.layers.length
  layers : ∀ (q : Nat) (l : Layer ℝ), j.layers[q]? = some l →
    ∃ L : ∀ i, Layer (T i), (∀ᶠ i in F, (J i).layers[q]? = some (L i)) ∧ LLim R F L l

namespace Spec
open Junction Layer

/-- The four points at which a Runge–Kutta step of `dm/dt = f(t, m)` evaluates `f`. -/
def rkPoints {T : Type} [Scalar T] (f : T → CVec T → CVec T) (t dt : T) (m : CVec T) : List (T × CVec T) :=
  let k1 := f t m * dt
  let k2 := f (t + 0.5 * dt) (m + k1 * (0.5 : T)) * dt
  let k3 := f (t + 0.5 * dt) (m + k2 * (0.5 : T)) * dt
  [(t, m), (t + 0.5 * dt, m + k1 * (0.5 : T)), (t + 0.5 * dt, m + k2 * (0.5 : T)), (t + dt, m + k3)]

/-- The points at which the equation of motion of layer `l` is evaluated in one step lie where it is continuous. -/
def Regular (r : Runner) (ls : List (Layer ℝ)) (t dt : ℝ) (q : Nat) (l : Layer ℝ) : Prop :=
  let b := magBelow ls q
  let a := magAbove ls q
  match r with
  | .single | .multi => ∀ x ∈ rkPoints (fun s m => l.llgV s m b a) t dt l.mag, SmoothAt l x.1 x.2 b a
  | .eulerHeun => SmoothAt l t l.mag b a
  | .heun => SmoothAt l t l.mag b a ∧
      SmoothAt l (t + dt) (heunNextV l t dt b a) (below (nexts ls t dt) q) (above (nexts ls t dt) q)

end Spec

section
open Junction Layer Spec
variable {R : ∀ i, Rounding (T i) (u i)} (hu : Tendsto u F (𝓝 0)) {L : ∀ i, Layer (T i)} {l : Layer ℝ} {t dt : ∀ i, T i} {s d : ℝ}
  {b a m : ∀ i, CVec (T i)} {pb pa p : CVec ℝ} {J : ∀ i, Junction (T i)} {j : Junction ℝ}

theorem VLim.congr {v w : ∀ i, CVec (T i)} (hv : VLim R F v p) (h : ∀ᶠ i in F, v i = w i) : VLim R F w p :=
  ⟨hv.x.congr (h.mono fun _ e => by rw [e]), hv.y.congr (h.mono fun _ e => by rw [e]), hv.z.congr (h.mono fun _ e => by rw [e])⟩

include hu

theorem JLim.magBelow (hj : JLim R F J j) (q : Nat) (hq : q < j.layers.length) :
    VLim R F (fun i => Spec.magBelow (J i).layers q) (Spec.magBelow j.layers q) := by
  cases q with
  | zero => exact .zero hu
  | succ q =>
    have hlt : q < j.layers.length := by omega
    obtain ⟨L, h1, h2⟩ := hj.layers q _ (List.getElem?_eq_getElem hlt)
    have e : Spec.magBelow j.layers (q + 1) = j.layers[q].mag := by
      simp only [Spec.magBelow, List.getElem?_eq_getElem hlt]
    rw [e]
    refine h2.mag.congr (h1.mono fun i hi => ?_)
    simp only [Spec.magBelow, hi]

theorem JLim.magAbove (hj : JLim R F J j) (q : Nat) :
    VLim R F (fun i => Spec.magAbove (J i).layers q) (Spec.magAbove j.layers q) := by
  by_cases hlt : q + 1 < j.layers.length
  · obtain ⟨L, h1, h2⟩ := hj.layers (q + 1) _ (List.getElem?_eq_getElem hlt)
    have e : Spec.magAbove j.layers q = j.layers[q + 1].mag := by
      simp only [Spec.magAbove, List.getElem?_eq_getElem hlt]
    rw [e]
    refine h2.mag.congr (h1.mono fun i hi => ?_)
    simp only [Spec.magAbove, hi]
  · have e : Spec.magAbove j.layers q = .zero := by
      simp only [Spec.magAbove, List.getElem?_eq_none (not_lt.1 hlt)]; rfl
    rw [e]
    refine (VLim.zero hu).congr (hj.length.mono fun i hi => ?_)
    simp only [Spec.magAbove, List.getElem?_eq_none (show (J i).layers.length ≤ q + 1 by omega)]; rfl

theorem noise_lim : VLim R F (fun i => (noNoise : CVec (T i))) (noNoise : CVec ℝ) := .add hu (.zero hu) (.zero hu)

theorem LLim.torque (hL : LLim R F L l) (hm : VLim R F m p) :
    VLim R F (fun i => (L i).stochasticTorque (m i) noNoise) (l.stochasticTorque p noNoise) := by
  have hc := hm.cross hu (noise_lim hu)
  refine .mulr hu (.add hu hc (.mulr hu (hm.cross hu hc) hL.damping))
    (.div hu (.neg (LLim.gyro hu)) (.add hu (.lit hu _) (.powi hu hL.damping 2)) ?_)
  have : (1 : ℝ) + l.damping ^ 2 ≠ 0 := by positivity
  simpa using this

theorem sqrt_dt (hd : Lim R F dt d) (h0 : 0 < d) : Lim R F (fun i => Scalar.sqrt (dt i)) (Scalar.sqrt d) :=
  .sqrt hu hd ((hd.eventually (lt_mem_nhds h0)).mono fun _ h => le_of_lt h)

theorem LLim.rk4U (hL : LLim R F L l) (hg : l.Guard) (ht : Lim R F t s) (hd : Lim R F dt d) (hb : VLim R F b pb) (ha : VLim R F a pa)
    (h : ∀ x ∈ rkPoints (fun s m => l.llgV s m pb pa) s d l.mag, SmoothAt l x.1 x.2 pb pa) :
    VLim R F (fun i => Layer.rk4U (fun τ v => (L i).llgV τ v (b i) (a i)) (t i) (dt i) (L i).mag)
      (Layer.rk4U (fun τ v => l.llgV τ v pb pa) s d l.mag) := by
  unfold rkPoints at h
  simp only [List.mem_cons, List.not_mem_nil, or_false, forall_eq_or_imp, forall_eq] at h
  obtain ⟨h1, h2, h3, h4⟩ := h
  have k1 := VLim.mulr hu (hL.llgV hu hg h1 ht hL.mag hb ha) hd
  have k2 := VLim.mulr hu (hL.llgV hu hg h2 (.add hu ht (.mul hu (.lit hu _) hd)) (.add hu hL.mag (.mulr hu k1 (.lit hu _))) hb ha) hd
  have k3 := VLim.mulr hu (hL.llgV hu hg h3 (.add hu ht (.mul hu (.lit hu _) hd)) (.add hu hL.mag (.mulr hu k2 (.lit hu _))) hb ha) hd
  have k4 := VLim.mulr hu (hL.llgV hu hg h4 (.add hu ht hd) (.add hu hL.mag k3) hb ha) hd
  have hs := VLim.add hu (.add hu (.add hu k1 (.mulr hu k2 (.lit hu (OfScientific.ofScientific 20 true 1))))
    (.mulr hu k3 (.lit hu (OfScientific.ofScientific 20 true 1)))) k4
  have n6 : (Scalar.lit (OfScientific.ofScientific 60 true 1 : ℚ) : ℝ) ≠ 0 := by simp
  exact .add hu hL.mag ⟨.div hu hs.x (.lit hu _) n6, .div hu hs.y (.lit hu _) n6, .div hu hs.z (.lit hu _) n6⟩

theorem LLim.eulerHeun (hL : LLim R F L l) (hg : l.Guard) (ht : Lim R F t s) (hd : Lim R F dt d) (h0 : 0 < d) (hb : VLim R F b pb)
    (ha : VLim R F a pa) (h : SmoothAt l s l.mag pb pa) :
    VLim R F (fun i => eulerHeunV (L i) (t i) (dt i) (b i) (a i)) (eulerHeunV l s d pb pa) := by
  have hq := sqrt_dt hu hd h0
  have g1 := hL.torque hu hL.mag
  have g2 := hL.torque hu (.add hu hL.mag (.mulr hu g1 hq))
  exact .add hu (.add hu hL.mag (.mulr hu (hL.llgV hu hg h ht hL.mag hb ha) hd)) (.mulr hu (.mull hu (.lit hu _) (.add hu g1 g2)) hq)

theorem LLim.heunNext (hL : LLim R F L l) (hg : l.Guard) (ht : Lim R F t s) (hd : Lim R F dt d) (h0 : 0 < d) (hb : VLim R F b pb)
    (ha : VLim R F a pa) (h : SmoothAt l s l.mag pb pa) :
    VLim R F (fun i => heunNextV (L i) (t i) (dt i) (b i) (a i)) (heunNextV l s d pb pa) :=
  .add hu (.add hu hL.mag (.mulr hu (hL.llgV hu hg h ht hL.mag hb ha) hd)) (.mulr hu (hL.torque hu hL.mag) (sqrt_dt hu hd h0))

/-- helper: the predictor of one layer, and zero outside -/
theorem JLim.next (hj : JLim R F J j) (hg : ∀ l ∈ j.layers, l.Guard) (ht : Lim R F t s) (hd : Lim R F dt d) (h0 : 0 < d)
    (h : ∀ (q : Nat) (l : Layer ℝ), j.layers[q]? = some l → SmoothAt l s l.mag (Spec.magBelow j.layers q) (Spec.magAbove j.layers q))
    (q : Nat) : VLim R F (fun i => (nexts (J i).layers (t i) (dt i)).getD q .zero) ((nexts j.layers s d).getD q .zero) := by
  rcases hq : j.layers[q]? with _ | l
  · have hle : j.layers.length ≤ q := List.getElem?_eq_none_iff.1 hq
    rw [List.getD_eq_getElem?_getD, List.getElem?_eq_none (by rw [nexts_length]; exact hle)]
    refine (VLim.zero hu).congr (hj.length.mono fun i hi => ?_)
    rw [List.getD_eq_getElem?_getD, List.getElem?_eq_none (by rw [nexts_length]; omega)]; rfl
  · have hlt : q < j.layers.length := (List.getElem?_eq_some_iff.1 hq).1
    obtain ⟨L, h1, h2⟩ := hj.layers q l hq
    have e : (nexts j.layers s d).getD q .zero = heunNextV l s d (Spec.magBelow j.layers q) (Spec.magAbove j.layers q) := by
      rw [List.getD_eq_getElem?_getD, nexts, List.getElem?_mapIdx, hq]; rfl
    rw [e]
    refine (h2.heunNext hu (hg l (List.mem_of_getElem? hq)) ht hd h0 (hj.magBelow hu q hlt) (hj.magAbove hu q) (h q l hq)).congr
      (h1.mono fun i hi => ?_)
    rw [List.getD_eq_getElem?_getD, nexts, List.getElem?_mapIdx, hi]; rfl

theorem JLim.below (hj : JLim R F J j) (hg : ∀ l ∈ j.layers, l.Guard) (ht : Lim R F t s) (hd : Lim R F dt d) (h0 : 0 < d)
    (h : ∀ (q : Nat) (l : Layer ℝ), j.layers[q]? = some l → SmoothAt l s l.mag (Spec.magBelow j.layers q) (Spec.magAbove j.layers q))
    (q : Nat) : VLim R F (fun i => Junction.below (nexts (J i).layers (t i) (dt i)) q) (Junction.below (nexts j.layers s d) q) := by
  unfold Junction.below
  split
  · exact .zero hu
  · exact hj.next hu hg ht hd h0 h _

theorem JLim.above (hj : JLim R F J j) (hg : ∀ l ∈ j.layers, l.Guard) (ht : Lim R F t s) (hd : Lim R F dt d) (h0 : 0 < d)
    (h : ∀ (q : Nat) (l : Layer ℝ), j.layers[q]? = some l → SmoothAt l s l.mag (Spec.magBelow j.layers q) (Spec.magAbove j.layers q))
    (q : Nat) : VLim R F (fun i => Junction.above (nexts (J i).layers (t i) (dt i)) q) (Junction.above (nexts j.layers s d) q) := by
  unfold Junction.above
  simp only [nexts_length]
  split
  · rename_i hq
    refine (VLim.zero hu).congr (hj.length.mono fun i hi => ?_)
    rw [if_pos (by omega)]
  · rename_i hq
    refine (hj.next hu hg ht hd h0 h (q + 1)).congr (hj.length.mono fun i hi => ?_)
    rw [if_neg (by omega)]

theorem JLim.stepU (hj : JLim R F J j) (hg : ∀ l ∈ j.layers, l.Guard) (ht : Lim R F t s) (hd : Lim R F dt d) (h0 : 0 < d) (r : Runner)
    (h : ∀ (q : Nat) (l : Layer ℝ), j.layers[q]? = some l → Regular r j.layers s d q l) {q : Nat} {l : Layer ℝ}
    (hq : j.layers[q]? = some l) (hL : LLim R F L l) :
    VLim R F (fun i => Junction.stepU r (J i).layers (t i) (dt i) q (L i)) (Junction.stepU r j.layers s d q l) := by
  have hlt : q < j.layers.length := (List.getElem?_eq_some_iff.1 hq).1
  have hb := hj.magBelow hu q hlt
  have ha := hj.magAbove hu q
  have hgl := hg l (List.mem_of_getElem? hq)
  cases r with
  | single => exact hL.rk4U hu hgl ht hd hb ha (h q l hq)
  | multi => exact hL.rk4U hu hgl ht hd hb ha (h q l hq)
  | eulerHeun => exact hL.eulerHeun hu hgl ht hd h0 hb ha (h q l hq)
  | heun =>
    have hs : ∀ (q : Nat) (l : Layer ℝ), j.layers[q]? = some l → SmoothAt l s l.mag (Spec.magBelow j.layers q) (Spec.magAbove j.layers q) :=
      fun q l hl => (h q l hl).1
    have f1 := hL.llgV hu hgl (hs q l hq) ht hL.mag hb ha
    have hn := hL.heunNext hu hgl ht hd h0 hb ha (hs q l hq)
    have f2 := hL.llgV hu hgl (h q l hq).2 (.add hu ht hd) hn (hj.below hu hg ht hd h0 hs q) (hj.above hu hg ht hd h0 hs q)
    have hsq := sqrt_dt hu hd h0
    exact .add hu (.add hu hL.mag (.mull hu (.mul hu (.lit hu _) hd) (.add hu f1 f2)))
      (.mulr hu (.mull hu (.lit hu _) (.add hu (hL.torque hu hL.mag) (hL.torque hu hn))) hsq)

omit hu in
/-- helper -/
theorem LLim.moved (hL : LLim R F L l) (c : ∀ i, LayerLog (T i)) (c0 : LayerLog ℝ) (hm : VLim R F m p) :
    LLim R F (fun i => ((L i).setCache (c i)).setMag (m i)) ((l.setCache c0).setMag p) := by
  constructor <;> first | exact hm | (cases hL; assumption)

omit hu in
theorem normalize_ne {p : CVec ℝ} (h : p.normalize ≠ ⟨0, 0, 0⟩) : p.length ≠ 0 := by
  intro h0
  apply h
  have e : p.x ^ 2 + p.y ^ 2 + p.z ^ 2 = 0 := by
    have h1 : Real.sqrt (p.x ^ 2 + p.y ^ 2 + p.z ^ 2) = 0 := by simpa [CVec.length] using h0
    exact (Real.sqrt_eq_zero (by positivity)).1 h1
  have hx : p.x = 0 := by nlinarith [sq_nonneg p.x, sq_nonneg p.y, sq_nonneg p.z]
  have hy : p.y = 0 := by nlinarith [sq_nonneg p.x, sq_nonneg p.y, sq_nonneg p.z]
  have hz : p.z = 0 := by nlinarith [sq_nonneg p.x, sq_nonneg p.y, sq_nonneg p.z]
  obtain ⟨x, y, z⟩ := p
  simp only at hx hy hz
  subst hx; subst hy; subst hz
  unfold CVec.normalize
  simp [h0]

/-- One step. -/
theorem JLim.step {K : ∀ i, Junction (T i)} {k : Junction ℝ} (hj : JLim R F J j) (ht : Lim R F t s) (hd : Lim R F dt d) (h0 : 0 < d) {r : Runner}
    (hr : r = .single → j.layers.length = 1) (hQ : ∀ᶠ i in F, ∀ l ∈ (J i).layers, ¬ Noisy l) (hq : ∀ l ∈ j.layers, ¬ Noisy l)
    (hK : ∀ᶠ i in F, (J i).runStep r (t i) (dt i) = .ok () (K i)) (hk : j.runStep r s d = .ok () k)
    (h : ∀ (q : Nat) (l : Layer ℝ), j.layers[q]? = some l → Regular r j.layers s d q l)
    (hne : ∀ l ∈ k.layers, l.mag ≠ ⟨0, 0, 0⟩) : JLim R F K k := by
  obtain ⟨e1, e2⟩ := quiet_step hr hq hk
  have hst : ∀ᶠ i in F, (K i).layers.length = (J i).layers.length ∧ ∀ (q : Nat) (l : Layer (T i)), (J i).layers[q]? = some l → l.Guard ∧
      ∃ c, (K i).layers[q]? = some ((l.setCache c).setMag (Junction.stepU r (J i).layers (t i) (dt i) q l).normalize) := by
    filter_upwards [hj.length, hQ, hK] with i a1 a2 a3
    exact quiet_step (fun hs => by rw [a1]; exact hr hs) a2 a3
  have hg : ∀ l ∈ j.layers, l.Guard := fun l hl => by
    obtain ⟨q, hq'⟩ := List.mem_iff_getElem?.1 hl
    exact (e2 q l hq').1
  refine ⟨?_, fun q l' hl' => ?_⟩
  · filter_upwards [hj.length, hst] with i a1 a2
    rw [a2.1, a1, e1]
  · have hlt : q < j.layers.length := by rw [← e1]; exact (List.getElem?_eq_some_iff.1 hl').1
    have hl := List.getElem?_eq_getElem hlt
    obtain ⟨-, c0, hc0⟩ := e2 q _ hl
    rw [hl'] at hc0
    simp only [Option.some.injEq] at hc0
    obtain ⟨L, hL1, hL2⟩ := hj.layers q _ hl
    have hn : (Junction.stepU r j.layers s d q j.layers[q]).normalize ≠ ⟨0, 0, 0⟩ := by
      have := hne l' (List.mem_of_getElem? hl')
      rw [hc0] at this
      exact this
    have hv := (hj.stepU hu hg ht hd h0 r h hl hL2).normalize hu (normalize_ne hn)
    rw [hc0]
    refine ⟨_, ?_, hL2.moved (fun i => (((K i).layers[q]?).getD (L i)).cache) c0 hv⟩
    filter_upwards [hL1, hst] with i a1 a2
    obtain ⟨-, c, hc⟩ := a2.2 q _ a1
    rw [hc]; rfl
end
