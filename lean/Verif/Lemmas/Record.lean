import Verif.Lemmas.Frame
import Verif.Lemmas.Log
import Verif.Lemmas.Steps

/-! What the layers record of the evaluations of their right-hand side, and which of it survives a step. -/

set_option linter.unusedSectionVars false
set_option linter.unusedSimpArgs false

namespace Layer
variable {T : Type} [Scalar T]

/-- the record `c` is that of an evaluation at time `s`, magnetisation `m` and neighbours `b`, `a` -/
structure Rec (l : Layer T) (s : T) (m b a : CVec T) (c : LayerLog T) : Prop where
  ext : c.Hext = l.externalFieldDriver.value s
  K : c.K = l.anisotropyDriver.value s
  Jbottom : c.Jbottom = l.IECDriverBottom.value s
  Jtop : c.Jtop = l.IECDriverTop.value s
  anis : c.HAnis = l.anisotropyField (l.anisotropyDriver.value s) m
  demag : c.Hdemag = Tensor.interaction m l.demagTensor l.Ms
  iec : c.HIEC = l.iecV (l.IECDriverBottom.value s) (l.IECQuadDriverBottom.value s) m b +
    l.iecV (l.IECDriverTop.value s) (l.IECQuadDriverTop.value s) m a
  current : l.includeSTT = true ∨ (l.includeSOT = true ∧ l.dynamicSOT = false) → c.I = l.currentDriver.value s
  torqueF : l.includeSTT = false → l.includeSOT = true → c.Hfl_v = l.reference b a *
    ((if l.dynamicSOT then l.fieldLikeTorqueDriver.value s else l.fieldLikeTorque * l.currentDriver.value s) -
      l.damping * (if l.dynamicSOT then l.dampingLikeTorqueDriver.value s else l.dampingLikeTorque * l.currentDriver.value s))
  torqueD : l.includeSTT = false → l.includeSOT = true → c.Hdl_v = l.reference b a *
    ((if l.dynamicSOT then l.dampingLikeTorqueDriver.value s else l.dampingLikeTorque * l.currentDriver.value s) +
      l.damping * (if l.dynamicSOT then l.fieldLikeTorqueDriver.value s else l.fieldLikeTorque * l.currentDriver.value s))
  guard : l.Guard

/-- members of the record that evaluations leave alone -/
structure Kept (l : Layer T) (c d : LayerLog T) : Prop where
  fluct : d.Hfluctuation = c.Hfluctuation
  current : ¬ (l.includeSTT = true ∨ (l.includeSOT = true ∧ l.dynamicSOT = false)) → d.I = c.I

theorem Kept.trans {l : Layer T} {c d e : LayerLog T} (h : Kept l c d) (h' : Kept l d e) : Kept l c e :=
  ⟨h'.fluct.trans h.fluct, fun q => (h'.current q).trans (h.current q)⟩

theorem Kept.refl (l : Layer T) (c : LayerLog T) : Kept l c c := ⟨rfl, fun _ => rfl⟩

theorem Rec.same {l l' : Layer T} (h : Same l l') {s : T} {m b a : CVec T} {c : LayerLog T} (hr : Rec l' s m b a c) : Rec l s m b a c := by
  obtain ⟨_, _, _, _, _, rfl⟩ := h
  exact ⟨hr.ext, hr.K, hr.Jbottom, hr.Jtop, hr.anis, hr.demag, hr.iec, hr.current, hr.torqueF, hr.torqueD, hr.guard⟩

theorem Kept.same {l l' : Layer T} (h : Same l l') {c d : LayerLog T} (hr : Kept l' c d) : Kept l c d := by
  obtain ⟨_, _, _, _, _, rfl⟩ := h
  exact ⟨hr.fluct, hr.current⟩

theorem heffD_rec (l : Layer T) (t : T) (m b a dip fl : CVec T) (h : l.Guard) :
    ∃ c, l.calculateHeffDipoleInjection t m b a dip fl = .ok (l.heffV t m b a dip fl) (l.setCache c) ∧
      c.Hext = l.externalFieldDriver.value t ∧ c.K = l.anisotropyDriver.value t ∧ c.Jbottom = l.IECDriverBottom.value t ∧
      c.Jtop = l.IECDriverTop.value t ∧ c.HAnis = l.anisotropyField (l.anisotropyDriver.value t) m ∧
      c.Hdemag = Tensor.interaction m l.demagTensor l.Ms ∧
      c.HIEC = l.iecV (l.IECDriverBottom.value t) (l.IECQuadDriverBottom.value t) m b +
        l.iecV (l.IECDriverTop.value t) (l.IECQuadDriverTop.value t) m a ∧
      c.Hfluctuation = l.cache.Hfluctuation ∧ c.I = l.cache.I := by
  have e1 : ∀ c, (l.setCache c).calculateIEC t m b a = .ok (l.iecV (l.IECDriverBottom.value t) (l.IECQuadDriverBottom.value t) m b +
        l.iecV (l.IECDriverTop.value t) (l.IECQuadDriverTop.value t) m a) (l.setCache { c with
          Jbottom := l.IECDriverBottom.value t, Jtop := l.IECDriverTop.value t, J2bottom := l.IECQuadDriverBottom.value t,
          J2top := l.IECQuadDriverTop.value t }) := fun c => by
    unfold calculateIEC
    dsimp only
    rw [iec_ok (l.setCache c) _ _ _ _ h, iec_ok (l.setCache c) _ _ _ _ h]
    rfl
  have e2 : ∀ c, (l.setCache c).calculateIDMI t b a = .ok (l.idmiV (l.IDMIDriverBottom.value t) b + l.idmiV (l.IDMIDriverTop.value t) a) :=
    fun c => calculateIDMI_ok (l.setCache c) t b a h
  simp only [calculateHeffDipoleInjection, e1, e2, Out.bind_ok, setCache_setCache]
  exact ⟨_, rfl, rfl, rfl, rfl, rfl, rfl, rfl, rfl, rfl, rfl⟩

theorem heff_rec (l : Layer T) (t : T) (m b a fl : CVec T) (h : l.Guard) :
    ∃ c, l.calculateHeff t m b a fl = .ok (l.heffV t m b a (l.dipV b a) fl) (l.setCache c) ∧
      c.Hext = l.externalFieldDriver.value t ∧ c.K = l.anisotropyDriver.value t ∧ c.Jbottom = l.IECDriverBottom.value t ∧
      c.Jtop = l.IECDriverTop.value t ∧ c.HAnis = l.anisotropyField (l.anisotropyDriver.value t) m ∧
      c.Hdemag = Tensor.interaction m l.demagTensor l.Ms ∧
      c.HIEC = l.iecV (l.IECDriverBottom.value t) (l.IECQuadDriverBottom.value t) m b +
        l.iecV (l.IECDriverTop.value t) (l.IECQuadDriverTop.value t) m a ∧
      c.Hfluctuation = l.cache.Hfluctuation ∧ c.I = l.cache.I := by
  obtain ⟨c, hc⟩ := heffD_rec (l.setCache { l.cache with Hdipole := l.dipV b a }) t m b a (l.dipV b a) fl h
  exact ⟨c, hc⟩

/-- an evaluation returns the value, and leaves the record -/
theorem llg_rec (l : Layer T) (t : T) (m b a : CVec T) {f : CVec T} {l' : Layer T} (h : l.llg t m b a = .ok f l') :
    l.Guard ∧ f = l.llgV t m b a ∧ l' = l.setCache l'.cache ∧ Rec l t m b a l'.cache ∧ Kept l l.cache l'.cache := by
  by_cases hg : l.Guard
  swap
  · obtain ⟨c, hc⟩ := l.llg_err t m b a hg
    rw [hc] at h; simp [Out.fail, Out.ok] at h
  obtain ⟨c, hc⟩ := l.llg_ok t m b a hg
  have hf : f = l.llgV t m b a ∧ l' = l.setCache c := by
    rw [hc] at h
    simp only [Out.ok, Out.mk.injEq, Except.ok.injEq] at h
    exact ⟨h.1.symm, h.2.symm⟩
  refine ⟨hg, hf.1, by rw [hf.2]; rfl, ?_⟩
  clear hc hf
  obtain ⟨c1, hc1, p⟩ := heff_rec l t m b a .zero hg
  simp only [llg, hc1, Out.bind_ok] at h
  simp only [Out.ok, Out.mk.injEq, Except.ok.injEq] at h
  have h2 := h.2
  clear h
  subst h2
  obtain ⟨p1, p2, p3, p4, p5, p6, p7, p8, p9⟩ := p
  unfold solveLLG
  by_cases h1 : l.includeSTT = true
  · simp only [setCache, h1, if_true]
    exact ⟨⟨p1, p2, p3, p4, p5, p6, p7, fun _ => rfl, fun q => (by rw [h1] at q; cases q), fun q => (by rw [h1] at q; cases q),
      hg⟩,
      ⟨p8, fun q => absurd (.inl h1) q⟩⟩
  · have h1' : l.includeSTT = false := by simpa using h1
    by_cases h2 : l.includeSOT = true
    · simp only [setCache, h1', h2, if_true, Bool.false_eq_true, if_false]
      refine ⟨⟨p1, p2, p3, p4, p5, p6, p7, fun q => ?_, fun _ _ => rfl, fun _ _ => rfl, hg⟩, ⟨p8, fun q => ?_⟩⟩
      · rcases q with q | q
        · rw [h1'] at q; cases q
        · simp [q.2]
      · have : l.dynamicSOT = true := by
          by_contra hn
          exact q (.inr ⟨h2, by simpa using hn⟩)
        simp [this, p9]
    · have h2' : l.includeSOT = false := by simpa using h2
      simp only [setCache, h1', h2', Bool.false_eq_true, if_false]
      exact ⟨⟨p1, p2, p3, p4, p5, p6, p7, fun q => by simp [h1', h2'] at q, fun _ q => by simp [h2'] at q,
        fun _ q => by simp [h2'] at q, hg⟩, ⟨p8, fun _ => p9⟩⟩

/-- magnetisation at the last stage of a Runge-Kutta step -/
def rkLast (f : T → CVec T → CVec T) (t dt : T) (m : CVec T) : CVec T :=
  let k1 := f t m * dt
  let k2 := f (t + 0.5 * dt) (m + k1 * (0.5 : T)) * dt
  let k3 := f (t + 0.5 * dt) (m + k2 * (0.5 : T)) * dt
  m + k3

theorem rk4_rec (l : Layer T) (t dt : T) (b a : CVec T) {l' : Layer T} (h : l.rk4Step t dt b a = .ok () l') :
    Rec l (t + dt) (rkLast (fun s m => l.llgV s m b a) t dt l.mag) b a l'.cache ∧ Kept l l.cache l'.cache := by
  unfold rk4Step at h
  obtain ⟨f1, l1, h1, h⟩ := Out.bind_eq_ok h
  obtain ⟨-, e1, s1, -, k1⟩ := llg_rec _ _ _ _ _ h1
  obtain ⟨f2, l2, h2, h⟩ := Out.bind_eq_ok h
  obtain ⟨-, e2, s2, -, k2⟩ := llg_rec _ _ _ _ _ h2
  obtain ⟨f3, l3, h3, h⟩ := Out.bind_eq_ok h
  obtain ⟨-, e3, s3, -, k3⟩ := llg_rec _ _ _ _ _ h3
  obtain ⟨f4, l4, h4, h⟩ := Out.bind_eq_ok h
  obtain ⟨-, e4, s4, r4, k4⟩ := llg_rec _ _ _ _ _ h4
  have q1 : Same l l1 := by rw [s1]; exact same_setCache _ _
  have q2 : Same l l2 := q1.trans (by rw [s2]; exact same_setCache _ _)
  have q3 : Same l l3 := q2.trans (by rw [s3]; exact same_setCache _ _)
  have v2 : f2 = l.llgV (t + 0.5 * dt) (l.mag + f1 * dt * (0.5 : T)) b a := by rw [e2, s1, llgV_cache]
  have v3 : f3 = l.llgV (t + 0.5 * dt) (l.mag + f2 * dt * (0.5 : T)) b a := by rw [e3, s2, s1, llgV_cache, llgV_cache]
  have hl : l'.cache = l4.cache := by
    dsimp only at h
    split at h
    · simp [Out.fail, Out.ok] at h
    · simp only [Out.ok, Out.mk.injEq, true_and] at h
      rw [← h]; rfl
  rw [hl]
  refine ⟨?_, ((k1.trans (k2.same q1)).trans (k3.same q2)).trans (k4.same q3)⟩
  have := r4.same q3
  rwa [show l.mag + f3 * dt = rkLast (fun s m => l.llgV s m b a) t dt l.mag by rw [v3, v2, e1]; rfl] at this

theorem langevin_cache (l : Layer T) (t : T) : (l.langevinVector t).st.cache = l.cache := by
  unfold langevinVector
  split
  · rfl
  · split <;> rfl

theorem oneF_cache (l : Layer T) : l.oneFVector.st.cache = l.cache := by
  unfold oneFVector
  split
  · rfl
  · split <;> rfl

theorem langevin_mag' (l : Layer T) (t : T) : (l.langevinVector t).st.mag = l.mag := by
  unfold langevinVector
  split
  · rfl
  · split <;> rfl

theorem oneF_mag' (l : Layer T) : l.oneFVector.st.mag = l.mag := by
  unfold oneFVector
  split
  · rfl
  · split <;> rfl

end Layer

namespace Junction
open Spec Layer
variable {T : Type} [Scalar T]

theorem euler_rec (mags : List (CVec T)) (t dt : T) (i : Nat) (l : Layer T) {v : CVec T} {l' : Layer T}
    (h : eulerHeunLayer mags t dt i l = .ok v l') :
    Rec l t l.mag (below mags i) (above mags i) l'.cache ∧ Kept l l.cache l'.cache := by
  unfold eulerHeunLayer at h
  obtain ⟨w1, l1, h1, h⟩ := Out.bind_eq_ok h
  obtain ⟨w2, l2, h2, h⟩ := Out.bind_eq_ok h
  obtain ⟨f, l3, h3, h⟩ := Out.bind_eq_ok h
  obtain ⟨-, -, -, r, k⟩ := llg_rec _ _ _ _ _ h3
  have q1 : Same l l1 := by have := langevin_same l t; rwa [h1] at this
  have q2 : Same l l2 := q1.trans (by have := oneF_same l1; rwa [h2] at this)
  have c1 : l1.cache = l.cache := by have := langevin_cache l t; rwa [h1] at this
  have c2 : l2.cache = l1.cache := by have := oneF_cache l1; rwa [h2] at this
  have m1 : l1.mag = l.mag := by have := langevin_mag' l t; rwa [h1] at this
  have m2 : l2.mag = l1.mag := by have := oneF_mag' l1; rwa [h2] at this
  simp only [Out.ok, Out.mk.injEq] at h
  rw [← h.2]
  refine ⟨?_, ?_⟩
  · have := r.same q2
    rwa [m2, m1] at this
  · have := k.same q2
    rwa [c2, c1] at this

theorem predict_rec (mags : List (CVec T)) (t dt : T) (i : Nat) (l : Layer T) {v : HeunStage T} {l' : Layer T}
    (h : heunPredict mags t dt i l = .ok v l') : Same l l' ∧ Kept l l.cache l'.cache := by
  unfold heunPredict at h
  obtain ⟨f, l1, h1, h⟩ := Out.bind_eq_ok h
  obtain ⟨-, -, s, -, k⟩ := llg_rec _ _ _ _ _ h1
  obtain ⟨w1, l2, h2, h⟩ := Out.bind_eq_ok h
  obtain ⟨w2, l3, h3, h⟩ := Out.bind_eq_ok h
  have q1 : Same l l1 := by rw [s]; exact same_setCache _ _
  have q2 : Same l l2 := q1.trans (by have := langevin_same l1 t; rwa [h2] at this)
  have q3 : Same l l3 := q2.trans (by have := oneF_same l2; rwa [h3] at this)
  have c2 : l2.cache = l1.cache := by have := langevin_cache l1 t; rwa [h2] at this
  have c3 : l3.cache = l2.cache := by have := oneF_cache l2; rwa [h3] at this
  simp only [Out.ok, Out.mk.injEq] at h
  rw [← h.2]
  exact ⟨q3, by rw [c3, c2]; exact k⟩

theorem correct_rec (stages : List (HeunStage T)) (t dt : T) (i : Nat) (l : Layer T) {l' : Layer T}
    (h : heunCorrect stages t dt i l = .ok () l') :
    ∃ s, stages[i]? = some s ∧ Rec l (t + dt) s.mNext (below (stages.map HeunStage.mNext) i) (above (stages.map HeunStage.mNext) i) l'.cache ∧
      Kept l l.cache l'.cache := by
  unfold heunCorrect at h
  split at h
  · simp [Out.fail, Out.ok] at h
  · next hs =>
    obtain ⟨f, l1, h1, h⟩ := Out.bind_eq_ok h
    obtain ⟨-, -, -, r, k⟩ := llg_rec _ _ _ _ _ h1
    simp only [Out.ok, Out.mk.injEq, true_and] at h
    rw [← h]
    exact ⟨_, hs, r, k⟩

theorem storeMags_cache (ls : List (Layer T)) (ms : List (CVec T)) (q : Nat) {l : Layer T} (h : (storeMags ls ms)[q]? = some l) :
    ∃ l0, ls[q]? = some l0 ∧ l.cache = l0.cache := by
  induction ls generalizing ms q with
  | nil => cases ms <;> simp [storeMags] at h
  | cons x xs ih =>
    cases ms with
    | nil => exact ⟨l, h, rfl⟩
    | cons m ms =>
      cases q with
      | zero => simp only [storeMags, List.getElem?_cons_zero, Option.some.injEq] at h; exact ⟨x, rfl, by rw [← h]; rfl⟩
      | succ q => simp only [storeMags, List.getElem?_cons_succ] at h; simpa using ih ms q h

/-- time of the last evaluation of a step -/
def lastTime (r : Runner) (t dt : T) : T := if r = .eulerHeun then t else t + dt

/-- where the last evaluation of a step takes place -/
def At (r : Runner) (j : Junction T) (t dt : T) (q : Nat) (l : Layer T) (m b a : CVec T) : Prop :=
  match r with
  | .eulerHeun => m = l.mag ∧ b = below (j.layers.map Layer.mag) q ∧ a = above (j.layers.map Layer.mag) q
  | .heun => ∃ stages ls s, Out.traverse (heunPredict (j.layers.map Layer.mag) t dt) 0 j.layers = .ok stages ls ∧ stages[q]? = some s ∧
      m = s.mNext ∧ b = below (stages.map HeunStage.mNext) q ∧ a = above (stages.map HeunStage.mNext) q
  | _ => b = below (j.layers.map Layer.mag) q ∧ a = above (j.layers.map Layer.mag) q ∧
      m = rkLast (fun s x => l.llgV s x b a) t dt l.mag

theorem rec_below (ls : List (Layer T)) {q : Nat} (h : q < ls.length) : (magCopies ls).getD q .zero = below (ls.map Layer.mag) q := by
  unfold magCopies below
  cases q with
  | zero => simp
  | succ q => 
    have h1 : q < ls.length := by omega
    simp [List.getElem?_append, h1]

theorem rec_above (ls : List (Layer T)) {q : Nat} (h : q < ls.length) :
    (magCopies ls).getD (q + 2) .zero = above (ls.map Layer.mag) q := by
  unfold magCopies above
  rw [List.length_map]
  split
  · next e =>
    subst e
    have : ls.length - 1 + 1 = ls.length := by omega
    simp [List.getElem?_append, this]
  · next e =>
    have h1 : q + 1 < ls.length := by omega
    simp [List.getElem?_append, h1]

theorem step_rec {j k : Junction T} {r : Runner} {t dt : T} (h : j.runStep r t dt = .ok () k) (hs : r = .single → j.layers.length = 1)
    {q : Nat} {l l' : Layer T} (hl : j.layers[q]? = some l) (hl' : k.layers[q]? = some l') :
    Kept l l.cache l'.cache ∧ ∃ m b a, Rec l (lastTime r t dt) m b a l'.cache ∧ At r j t dt q l m b a := by
  have hq : q < j.layers.length := (List.getElem?_eq_some_iff.1 hl).1
  cases r with
  | single =>
    unfold runStep runSingleLayerSolver at h
    have h1 := hs rfl
    obtain ⟨x, hx⟩ := List.length_eq_one_iff.1 h1
    have : q = 0 := by omega
    subst this
    simp only [hx, List.getElem?_cons_zero, Option.some.injEq] at hl
    subst hl
    simp only [hx] at h
    rcases hr : x.rk4Step t dt .zero .zero with ⟨_ | _, y⟩ <;> rw [hr] at h <;> simp [Out.ok] at h
    subst h
    simp only [List.getElem?_cons_zero, Option.some.injEq] at hl'
    subst hl'
    obtain ⟨r1, r2⟩ := rk4_rec x t dt .zero .zero (l' := y) (by rw [hr]; rfl)
    refine ⟨r2, rkLast (fun s m => x.llgV s m .zero .zero) t dt x.mag, .zero, .zero, ?_, ?_⟩
    · rw [lastTime, if_neg (by decide)]; exact r1
    · refine ⟨?_, ?_, rfl⟩ <;> simp [below, above, hx]
  | multi =>
    unfold runStep runMultiLayerSolver at h
    dsimp only at h
    rcases ht : Out.traverse (fun i l => l.rk4Step t dt ((magCopies j.layers).getD i .zero) ((magCopies j.layers).getD (i + 2) .zero)) 0 j.layers
      with ⟨_ | _, ls⟩ <;> rw [ht] at h <;> simp [Out.ok, Out.fail] at h
    subst h
    obtain ⟨-, -, h3⟩ := Out.traverse_ok _ (bs := _) (as' := ls) (by rw [ht]; rfl)
    obtain ⟨b, y, -, hy, hf⟩ := h3 q l hl
    have : some y = some l' := by rw [← hy, ← hl']
    cases this
    rw [Nat.zero_add, rec_below _ hq, rec_above _ hq] at hf
    obtain ⟨r1, r2⟩ := rk4_rec _ _ _ _ _ hf
    refine ⟨r2, _, _, _, (?_ : Rec _ _ _ _ _ _), rfl, rfl, rfl⟩
    rw [lastTime, if_neg (by decide)]; exact r1
  | heun =>
    unfold runStep heunSolverStep at h
    dsimp only at h
    rcases ht : Out.traverse (heunPredict (j.layers.map Layer.mag) t dt) 0 j.layers with ⟨_ | stages, ls⟩ <;> rw [ht] at h <;> simp [Out.ok, Out.fail] at h
    rcases hu : Out.traverse (heunCorrect stages t dt) 0 ls with ⟨_ | _, ls2⟩ <;> rw [hu] at h <;> simp [Out.ok, Out.fail] at h
    subst h
    obtain ⟨-, -, h3⟩ := Out.traverse_ok _ (bs := stages) (as' := ls) (by rw [ht]; rfl)
    obtain ⟨b, y, -, hy, hf⟩ := h3 q l hl
    obtain ⟨-, -, h4⟩ := Out.traverse_ok _ (bs := _) (as' := ls2) (by rw [hu]; rfl)
    obtain ⟨_, z, -, hz, hg⟩ := h4 q y hy
    have : some z = some l' := by rw [← hz, ← hl']
    cases this
    obtain ⟨s1, k1⟩ := predict_rec _ _ _ _ _ hf
    obtain ⟨s, hs, r1, r2⟩ := correct_rec _ _ _ _ _ hg
    rw [Nat.zero_add] at hs r1
    refine ⟨k1.trans (r2.same s1), _, _, _, ?_, stages, ls, s, ht, hs, rfl, rfl, rfl⟩
    rw [lastTime, if_neg (by decide)]; exact r1.same s1
  | eulerHeun =>
    unfold runStep eulerHeunSolverStep at h
    dsimp only at h
    rcases ht : Out.traverse (eulerHeunLayer (j.layers.map Layer.mag) t dt) 0 j.layers with ⟨_ | _, ls⟩ <;> rw [ht] at h <;> simp [Out.ok, Out.fail] at h
    subst h
    obtain ⟨-, -, h3⟩ := Out.traverse_ok _ (bs := _) (as' := ls) (by rw [ht]; rfl)
    obtain ⟨b, y, -, hy, hf⟩ := h3 q l hl
    obtain ⟨l0, h0, hc⟩ := storeMags_cache _ _ _ hl'
    have : some y = some l0 := by rw [← hy, ← h0]
    cases this
    rw [Nat.zero_add] at hf
    obtain ⟨r1, r2⟩ := euler_rec _ _ _ _ _ hf
    rw [hc]
    refine ⟨r2, _, _, _, ?_, rfl, rfl, rfl⟩
    rw [lastTime, if_pos rfl]; exact r1

end Junction
