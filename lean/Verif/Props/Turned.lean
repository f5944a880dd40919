import Verif.Props.Runs
import Verif.Props.Resistance

set_option linter.unusedSectionVars false

/-!
# C131: a stack entered upside down is the same stack

Which layer is called the bottom one is a convention: a user who lists the layers from top to bottom, and exchanges what refers to the
layer above and the layer below, has described the same sample.
-/

namespace Spec
variable {T : Type} [Scalar T]

/-- The reference layer seen from the other side. -/
def turnedReference : Reference → Reference
  | .TOP => .BOTTOM
  | .BOTTOM => .TOP
  | r => r

/-- A layer turned over: what acted through its top surface acts through its bottom surface, and the other way round. -/
def turnedLayer (l : Layer T) : Layer T :=
  { l with
    IECDriverTop := l.IECDriverBottom, IECDriverBottom := l.IECDriverTop
    IECQuadDriverTop := l.IECQuadDriverBottom, IECQuadDriverBottom := l.IECQuadDriverTop
    IDMIDriverTop := l.IDMIDriverBottom, IDMIDriverBottom := l.IDMIDriverTop
    dipoleTop := l.dipoleBottom, dipoleBottom := l.dipoleTop
    referenceType := turnedReference l.referenceType
    cache := { l.cache with Jbottom := l.cache.Jtop, Jtop := l.cache.Jbottom, J2bottom := l.cache.J2top, J2top := l.cache.J2bottom } }

/-- A stack turned over: the layers, each turned over, in the opposite order. -/
def turnedOver (ls : List (Layer T)) : List (Layer T) := (ls.map turnedLayer).reverse

end Spec

namespace Out
variable {σ τ α β : Type}

/-- helper: the same outcome with the object seen through `F` -/
def mapSt (F : σ → τ) (x : Out σ α) : Out τ α := ⟨x.res, F x.st⟩

/-- helper -/
theorem mapSt_bind (F : σ → σ) {x : Out σ α} {f g : α → σ → Out σ β} (h : ∀ a s, g a (F s) = (f a s).mapSt F) :
    (x.mapSt F).bind g = (x.bind f).mapSt F := by
  rcases x with ⟨_ | a, s⟩
  · rfl
  · exact h a s

/-- helper -/
theorem traverse_of_forall (f : Nat → σ → Out σ β) (i : Nat) (as : List σ) (bs : List β) (as' : List σ)
    (h1 : bs.length = as.length) (h2 : as'.length = as.length)
    (h : ∀ k a, as[k]? = some a → ∃ b a', bs[k]? = some b ∧ as'[k]? = some a' ∧ f (i + k) a = .ok b a') :
    traverse f i as = .ok bs as' := by
  induction as generalizing i bs as' with
  | nil =>
    rw [List.length_nil] at h1 h2
    rw [List.length_eq_zero_iff.1 h1, List.length_eq_zero_iff.1 h2]; rfl
  | cons a as ih =>
    cases bs with
    | nil => simp at h1
    | cons b bs =>
      cases as' with
      | nil => simp at h2
      | cons a' as' =>
        obtain ⟨b0, a0, e1, e2, e3⟩ := h 0 a (by simp)
        simp only [List.getElem?_cons_zero, Option.some.injEq] at e1 e2
        subst e1 e2
        have := ih (i + 1) bs as' (by simpa using h1) (by simpa using h2) (fun k x hk => by
          obtain ⟨y, z, e1, e2, e3⟩ := h (k + 1) x (by simpa using hk)
          refine ⟨y, z, by simpa using e1, by simpa using e2, ?_⟩
          rw [← e3]; congr 1; ring)
        rw [Nat.add_zero] at e3
        simp only [traverse, e3, ok] at this ⊢
        rw [this]

/-- helper: a loop over the list in the opposite order -/
theorem traverse_turned (F : σ → σ) (f g : Nat → σ → Out σ β) {as : List σ} {bs : List β} {as' : List σ}
    (h : traverse f 0 as = .ok bs as')
    (hg : ∀ k a, as[k]? = some a → g (as.length - 1 - k) (F a) = (f k a).mapSt F) :
    traverse g 0 (as.map F).reverse = .ok bs.reverse (as'.map F).reverse := by
  obtain ⟨h1, h2, h3⟩ := traverse_ok f h
  refine traverse_of_forall _ _ _ _ _ (by simp [h1]) (by simp [h2]) fun k a hk => ?_
  have hlt : k < as.length := by
    have := (List.getElem?_eq_some_iff.1 hk).1
    simpa using this
  rw [List.getElem?_reverse (by simpa using hlt), List.length_map, List.getElem?_map] at hk
  obtain ⟨x, hx, rfl⟩ := Option.map_eq_some_iff.1 hk
  obtain ⟨b, a', e1, e2, e3⟩ := h3 _ x hx
  refine ⟨b, F a', ?_, ?_, ?_⟩
  · rw [List.getElem?_reverse (by rw [h1]; exact hlt), h1, e1]
  · rw [List.getElem?_reverse (by rw [List.length_map, h2]; exact hlt), List.length_map, h2, List.getElem?_map, e2]; rfl
  · have := hg _ x hx
    rw [show as.length - 1 - (as.length - 1 - k) = k by omega] at this
    rw [Nat.zero_add, this, show as.length - 1 - k = 0 + (as.length - 1 - k) by omega, e3]; rfl

end Out

namespace Layer
open Spec
variable {T : Type} [Scalar T]

/-- helper -/
theorem turned_turned (l : Layer T) : turnedLayer (turnedLayer l) = l := by
  have : turnedReference (turnedReference l.referenceType) = l.referenceType := by cases l.referenceType <;> rfl
  cases l; simp only [turnedLayer] at this ⊢; rw [this]

/-- helper -/
theorem cvec_comm (hc : ∀ a b : T, a + b = b + a) (a b : CVec T) : a + b = b + a :=
  CVec.ext (hc _ _) (hc _ _) (hc _ _)

/-- helper -/
theorem div_err {a b : CVec T} {s : T} {e e' : Err} (h : a.div s = .error e) (h' : b.div s = .error e') : e = e' := by
  unfold CVec.div at h h'
  split at h <;> split at h' <;> simp_all

/-- helper -/
theorem div_mix {a b c : CVec T} {s : T} {e : Err} (h : a.div s = .error e) (h' : b.div s = .ok c) : False := by
  unfold CVec.div at h h'
  split at h <;> split at h' <;> simp_all

/-- helper -/
theorem turned_iec (hc : ∀ a b : T, a + b = b + a) (l : Layer T) (t : T) (m b a : CVec T) :
    (turnedLayer l).calculateIEC t m a b = (l.calculateIEC t m b a).mapSt turnedLayer := by
  unfold calculateIEC
  dsimp only [turnedLayer]
  have e1 : ∀ J J2 m c, (turnedLayer l).iec J J2 m c = l.iec J J2 m c := fun _ _ _ _ => rfl
  simp only [turnedLayer] at e1
  simp only [e1]
  cases h1 : l.iec (l.IECDriverBottom.value t) (l.IECQuadDriverBottom.value t) m b with
  | error e =>
    cases h2 : l.iec (l.IECDriverTop.value t) (l.IECQuadDriverTop.value t) m a with
    | error e' => rw [div_err h1 h2]; rfl
    | ok v => exact (div_mix h1 h2).elim
  | ok u =>
    cases h2 : l.iec (l.IECDriverTop.value t) (l.IECQuadDriverTop.value t) m a with
    | error e' => exact (div_mix h2 h1).elim
    | ok v => dsimp only; rw [cvec_comm hc v u]; rfl

/-- helper -/
theorem turned_idmi (hc : ∀ a b : T, a + b = b + a) (l : Layer T) (t : T) (b a : CVec T) :
    (turnedLayer l).calculateIDMI t a b = l.calculateIDMI t b a := by
  unfold calculateIDMI
  dsimp only [turnedLayer]
  have e1 : ∀ D c, (turnedLayer l).idmi D c = l.idmi D c := fun _ _ => rfl
  simp only [turnedLayer] at e1
  simp only [e1]
  cases h1 : l.idmi (l.IDMIDriverBottom.value t) b with
  | error e =>
    cases h2 : l.idmi (l.IDMIDriverTop.value t) a with
    | error e' => rw [div_err h1 h2]
    | ok v => exact (div_mix h1 h2).elim
  | ok u =>
    cases h2 : l.idmi (l.IDMIDriverTop.value t) a with
    | error e' => exact (div_mix h2 h1).elim
    | ok v => simp only [cvec_comm hc u v]

/-- helper -/
theorem turned_heffD (hc : ∀ a b : T, a + b = b + a) (l : Layer T) (t : T) (m b a d f : CVec T) :
    (turnedLayer l).calculateHeffDipoleInjection t m a b d f = (l.calculateHeffDipoleInjection t m b a d f).mapSt turnedLayer := by
  unfold calculateHeffDipoleInjection
  refine (congrArg (fun x => Out.bind x _) (turned_iec hc (l.setCache (({ l.cache with
    Hext := l.externalFieldDriver.value t, Hoe := l.HoeDriver.value t,
    Hdemag := Tensor.interaction m l.demagTensor l.Ms } : LayerLog T))) t m b a)).trans ?_
  refine Out.mapSt_bind turnedLayer fun H s => ?_
  have e3 := turned_idmi hc (s.setCache ({ s.cache with HIEC := H } : LayerLog T)) t b a
  cases h : (s.setCache ({ s.cache with HIEC := H } : LayerLog T)).calculateIDMI t b a with
  | error e =>
    rw [h] at e3
    have e4 : ((turnedLayer s).setCache ({ (turnedLayer s).cache with HIEC := H } : LayerLog T)).calculateIDMI t a b = .error e := e3
    simp only [h, e4]; rfl
  | ok v =>
    rw [h] at e3
    have e4 : ((turnedLayer s).setCache ({ (turnedLayer s).cache with HIEC := H } : LayerLog T)).calculateIDMI t a b = .ok v := e3
    simp only [h, e4]; rfl

/-- helper -/
theorem turned_heff (hc : ∀ a b : T, a + b = b + a) (l : Layer T) (t : T) (m b a f : CVec T) :
    (turnedLayer l).calculateHeff t m a b f = (l.calculateHeff t m b a f).mapSt turnedLayer := by
  have e : Tensor.interaction a (turnedLayer l).dipoleBottom (turnedLayer l).Ms +
      Tensor.interaction b (turnedLayer l).dipoleTop (turnedLayer l).Ms =
    Tensor.interaction b l.dipoleBottom l.Ms + Tensor.interaction a l.dipoleTop l.Ms :=
    cvec_comm hc (Tensor.interaction a l.dipoleTop l.Ms) (Tensor.interaction b l.dipoleBottom l.Ms)
  unfold calculateHeff
  simp only [e]
  generalize Tensor.interaction b l.dipoleBottom l.Ms + Tensor.interaction a l.dipoleTop l.Ms = D
  exact turned_heffD hc (l.setCache ({ l.cache with Hdipole := D } : LayerLog T)) t m b a D f

/-- helper -/
theorem turned_solve (l : Layer T) (t : T) (m b a h : CVec T) :
    (turnedLayer l).solveLLG t m a b h = ((l.solveLLG t m b a h).1, turnedLayer (l.solveLLG t m b a h).2) := by
  have hr : (turnedLayer l).reference a b = l.reference b a := by
    unfold reference turnedLayer
    cases l.referenceType <;> rfl
  unfold solveLLG
  rw [hr]
  by_cases h1 : l.includeSTT = true
  · rw [if_pos h1, if_pos (show (turnedLayer l).includeSTT = true from h1)]; rfl
  · rw [if_neg h1, if_neg (show ¬(turnedLayer l).includeSTT = true from h1)]
    by_cases h2 : l.includeSOT = true
    · rw [if_pos h2, if_pos (show (turnedLayer l).includeSOT = true from h2)]; rfl
    · rw [if_neg h2, if_neg (show ¬(turnedLayer l).includeSOT = true from h2)]; rfl

/-- helper -/
theorem turned_llg (hc : ∀ a b : T, a + b = b + a) (l : Layer T) (t : T) (m b a : CVec T) :
    (turnedLayer l).llg t m a b = (l.llg t m b a).mapSt turnedLayer := by
  unfold llg
  rw [turned_heff hc]
  refine Out.mapSt_bind turnedLayer fun h s => ?_
  rw [turned_solve]; rfl

/-- helper -/
theorem turned_rk4 (hc : ∀ a b : T, a + b = b + a) (l : Layer T) (t dt : T) (b a : CVec T) :
    (turnedLayer l).rk4Step t dt a b = (l.rk4Step t dt b a).mapSt turnedLayer := by
  unfold rk4Step
  dsimp only
  rw [turned_llg hc]
  refine Out.mapSt_bind turnedLayer fun f1 s => ?_
  rw [turned_llg hc]
  refine Out.mapSt_bind turnedLayer fun f2 s => ?_
  rw [turned_llg hc]
  refine Out.mapSt_bind turnedLayer fun f3 s => ?_
  rw [turned_llg hc]
  refine Out.mapSt_bind turnedLayer fun f4 s => ?_
  change (if Scalar.isNan (CVec.normalize (rk4Combine l.mag _ _ _ _)).x then _ else _) =
    (if Scalar.isNan (CVec.normalize (rk4Combine l.mag _ _ _ _)).x then _ else _ : Out (Layer T) Unit).mapSt _
  split <;> rfl

/-- helper -/
theorem turned_langevin (l : Layer T) (t : T) :
    (turnedLayer l).langevinVector t = (l.langevinVector t).mapSt turnedLayer := by
  unfold langevinVector
  have e : (turnedLayer l).langevinStd t = l.langevinStd t := rfl
  rw [e]
  by_cases h : l.temperatureSet = true
  · simp only [show (turnedLayer l).temperatureSet = true from h, h]
    cases l.langevinStd t <;> rfl
  · simp only [show (turnedLayer l).temperatureSet = l.temperatureSet from rfl, h]; rfl

/-- helper -/
theorem turned_oneF (l : Layer T) : (turnedLayer l).oneFVector = l.oneFVector.mapSt turnedLayer := by
  unfold oneFVector
  by_cases h : Scalar.eqb l.noiseParams.scaleNoise 0 = true
  · rw [if_pos h, if_pos (show Scalar.eqb (turnedLayer l).noiseParams.scaleNoise 0 = true from h)]; rfl
  · rw [if_neg h, if_neg (show ¬Scalar.eqb (turnedLayer l).noiseParams.scaleNoise 0 = true from h)]
    have e : (turnedLayer l).bfn = l.bfn := rfl
    rw [e]
    cases l.bfn <;> rfl

/-- helper -/
theorem turned_buffer (l : Layer T) (n : Nat) :
    (turnedLayer l).createBufferedAlphaNoise n = (l.createBufferedAlphaNoise n).mapSt turnedLayer := by
  unfold createBufferedAlphaNoise
  by_cases h : Scalar.ltb l.noiseParams.alphaNoise 0 = true
  · rw [if_pos h, if_pos (show Scalar.ltb (turnedLayer l).noiseParams.alphaNoise 0 = true from h)]; rfl
  · rw [if_neg h, if_neg (show ¬Scalar.ltb (turnedLayer l).noiseParams.alphaNoise 0 = true from h)]
    simp only [show (turnedLayer l).noiseParams = l.noiseParams from rfl, show (turnedLayer l).alphaSrc = l.alphaSrc from rfl,
      show (turnedLayer l).bfnCount = l.bfnCount from rfl]
    cases VectorAlphaNoise.mk' n l.noiseParams.scaleNoise l.noiseParams.axis
        (l.alphaSrc l.bfnCount .xaxis) (l.alphaSrc l.bfnCount .yaxis) (l.alphaSrc l.bfnCount .zaxis) <;> rfl

end Layer

namespace Junction
open Spec
variable {T : Type} [Scalar T]

/-- helper -/
theorem below_turned (ms : List (CVec T)) (k : Nat) (h : k < ms.length) : below ms.reverse (ms.length - 1 - k) = above ms k := by
  unfold below above
  by_cases h1 : k = ms.length - 1
  · rw [if_pos (by omega), if_pos h1]
  · rw [if_neg (by omega), if_neg h1, List.getD_eq_getElem?_getD, List.getElem?_reverse (by omega), List.getD_eq_getElem?_getD]
    congr 2; omega

/-- helper -/
theorem above_turned (ms : List (CVec T)) (k : Nat) (h : k < ms.length) : above ms.reverse (ms.length - 1 - k) = below ms k := by
  have := below_turned ms.reverse (ms.length - 1 - k) (by simp; omega)
  rw [List.reverse_reverse, List.length_reverse, show ms.length - 1 - (ms.length - 1 - k) = k by omega] at this
  exact this.symm

/-- helper -/
theorem turned_mags (ls : List (Layer T)) : (turnedOver ls).map Layer.mag = (ls.map Layer.mag).reverse := by
  unfold turnedOver
  rw [List.map_reverse, List.map_map]; rfl

/-- helper -/
theorem copies_turned (ls : List (Layer T)) : magCopies (turnedOver ls) = (magCopies ls).reverse := by
  unfold magCopies
  rw [turned_mags]; simp

/-- helper -/
theorem storeMags_zip (ls : List (Layer T)) (ms : List (CVec T)) (h : ms.length = ls.length) :
    storeMags ls ms = List.zipWith (fun l m => l.setMag m.normalize) ls ms := by
  induction ls generalizing ms with
  | nil => cases ms <;> rfl
  | cons l ls ih =>
    cases ms with
    | nil => simp at h
    | cons m ms => rw [storeMags, ih ms (by simpa using h)]; rfl

/-- helper -/
theorem storeMags_turned (ls : List (Layer T)) (ms : List (CVec T)) (h : ms.length = ls.length) :
    storeMags (turnedOver ls) ms.reverse = turnedOver (storeMags ls ms) := by
  rw [storeMags_zip ls ms h, storeMags_zip _ _ (by simp [turnedOver, h])]
  unfold turnedOver
  rw [← List.reverse_zipWith (by simp [h]), List.zipWith_map_left, List.map_zipWith]
  rfl

/-- C131, one step of any solver: the turned stack makes the turned step, for every number type whose addition is commutative (IEEE
numbers among them). All drivers, torques, noises and recorded values. -/
theorem C131_step (hc : ∀ a b : T, a + b = b + a) {j j' k : Junction T} {r : Runner} {t dt : T}
    (hj : j'.layers = turnedOver j.layers) (hs : r = .single → j.layers.length = 1) (h : j.runStep r t dt = .ok () k) :
    ∃ k', j'.runStep r t dt = .ok () k' ∧ k'.layers = turnedOver k.layers := by
  cases r with
  | single =>
    obtain ⟨l, hl⟩ := List.length_eq_one_iff.1 (hs rfl)
    simp only [runStep, runSingleLayerSolver, hl] at h
    rw [hl] at hj
    simp only [runStep, runSingleLayerSolver, hj, turnedOver, List.map_cons, List.map_nil, List.reverse_cons, List.reverse_nil,
      List.nil_append]
    rw [Layer.turned_rk4 hc]
    rcases hx : l.rk4Step t dt .zero .zero with ⟨r, l'⟩
    rw [hx] at h
    simp only [Out.ok, Out.mk.injEq] at h
    obtain ⟨rfl, rfl⟩ := h
    exact ⟨_, rfl, rfl⟩
  | multi =>
    simp only [runStep, runMultiLayerSolver] at h ⊢
    split at h
    · simp [Out.ok, Out.fail] at h
    · rename_i bs ls hx
      have := Out.traverse_turned turnedLayer _ (fun i l => l.rk4Step t dt ((magCopies j'.layers).getD i .zero)
        ((magCopies j'.layers).getD (i + 2) .zero)) hx (fun q a hq => by
          have hlt := (List.getElem?_eq_some_iff.1 hq).1
          rw [hj, copies_turned]
          have hlen : (magCopies j.layers).length = j.layers.length + 2 := by simp [magCopies]
          rw [List.getD_eq_getElem?_getD, List.getElem?_reverse (by omega), List.getD_eq_getElem?_getD,
            List.getElem?_reverse (by omega), hlen, show j.layers.length + 2 - 1 - (j.layers.length - 1 - q) = q + 2 by omega,
            show j.layers.length + 2 - 1 - (j.layers.length - 1 - q + 2) = q by omega, Layer.turned_rk4 hc,
            List.getD_eq_getElem?_getD, List.getD_eq_getElem?_getD])
      have e : (j.layers.map turnedLayer).reverse = j'.layers := hj.symm
      rw [e] at this
      rw [this]
      simp only [Out.ok, Out.mk.injEq] at h
      rw [← h.2]
      exact ⟨_, rfl, rfl⟩
  | eulerHeun =>
    simp only [runStep, eulerHeunSolverStep] at h ⊢
    split at h
    · simp [Out.ok, Out.fail] at h
    · rename_i bs ls hx
      have hmag : j'.layers.map Layer.mag = (j.layers.map Layer.mag).reverse := by rw [hj, turned_mags]
      have := Out.traverse_turned turnedLayer _ (eulerHeunLayer (j'.layers.map Layer.mag) t dt) hx (fun q a hq => by
          have hlt := (List.getElem?_eq_some_iff.1 hq).1
          have e1 := below_turned (j.layers.map Layer.mag) q (by simpa using hlt)
          have e2 := above_turned (j.layers.map Layer.mag) q (by simpa using hlt)
          rw [List.length_map] at e1 e2
          unfold eulerHeunLayer
          dsimp only
          rw [hmag, e1, e2, Layer.turned_langevin]
          refine Out.mapSt_bind turnedLayer fun d1 s => ?_
          rw [Layer.turned_oneF]
          refine Out.mapSt_bind turnedLayer fun d2 s => ?_
          rw [show (turnedLayer s).mag = s.mag from rfl, Layer.turned_llg hc]
          refine Out.mapSt_bind turnedLayer fun f s => ?_
          rfl)
      have e : (j.layers.map turnedLayer).reverse = j'.layers := hj.symm
      rw [e] at this
      rw [this]
      simp only [Out.ok, Out.mk.injEq] at h
      rw [← h.2]
      refine ⟨_, rfl, ?_⟩
      have hl := Out.traverse_ok _ hx
      exact storeMags_turned ls bs (by rw [hl.1, hl.2.1])
  | heun =>
    simp only [runStep, heunSolverStep] at h ⊢
    split at h
    · simp [Out.ok, Out.fail] at h
    · rename_i bs ls hx
      have hmag : j'.layers.map Layer.mag = (j.layers.map Layer.mag).reverse := by rw [hj, turned_mags]
      have := Out.traverse_turned turnedLayer _ (heunPredict (j'.layers.map Layer.mag) t dt) hx (fun q a hq => by
          have hlt := (List.getElem?_eq_some_iff.1 hq).1
          have e1 := below_turned (j.layers.map Layer.mag) q (by simpa using hlt)
          have e2 := above_turned (j.layers.map Layer.mag) q (by simpa using hlt)
          rw [List.length_map] at e1 e2
          unfold heunPredict
          dsimp only
          rw [hmag, e1, e2, show (turnedLayer a).mag = a.mag from rfl, Layer.turned_llg hc]
          refine Out.mapSt_bind turnedLayer fun f s => ?_
          rw [Layer.turned_langevin]
          refine Out.mapSt_bind turnedLayer fun d1 s => ?_
          rw [Layer.turned_oneF]
          refine Out.mapSt_bind turnedLayer fun d2 s => ?_
          rfl)
      have e : (j.layers.map turnedLayer).reverse = j'.layers := hj.symm
      rw [e] at this
      rw [this]
      simp only [Out.ok]
      have hl := Out.traverse_ok _ hx
      split at h
      · simp [Out.ok, Out.fail] at h
      · rename_i us ls2 hy
        have := Out.traverse_turned turnedLayer _ (heunCorrect bs.reverse t dt) hy (fun q a hq => by
          have hlt := (List.getElem?_eq_some_iff.1 hq).1
          have hlen : bs.length = ls.length := by rw [hl.1, hl.2.1]
          have e1 := below_turned (bs.map HeunStage.mNext) q (by simpa [hlen] using hlt)
          have e2 := above_turned (bs.map HeunStage.mNext) q (by simpa [hlen] using hlt)
          rw [List.length_map, hlen] at e1 e2
          unfold heunCorrect
          rw [List.getElem?_reverse (by omega), hlen, show ls.length - 1 - (ls.length - 1 - q) = q by omega]
          cases bs[q]? with
          | none => rfl
          | some s =>
            dsimp only
            rw [List.map_reverse, e1, e2, Layer.turned_llg hc]
            refine Out.mapSt_bind turnedLayer fun f s => ?_
            rfl)
        rw [this]
        simp only [Out.ok, Out.mk.injEq] at h
        rw [← h.2]
        exact ⟨_, rfl, rfl⟩

/-! ### Whole runs -/

/-- helper: what the choice of the solver leaves of a layer -/
def noiseReady (n : Nat) (l : Layer T) : Layer T :=
  if Scalar.eqb l.noiseParams.scaleNoise 0 then l else (l.createBufferedAlphaNoise n).st

/-- helper -/
def loud (l : Layer T) : Bool := l.temperatureSet || !Scalar.eqb l.noiseParams.scaleNoise 0

/-- helper -/
theorem solverLoop_spec (n : Nat) (mode m : SolverMode) (ls ls' : List (Layer T)) :
    solverLoop n mode ls = .ok m ls' ↔
      (∀ l ∈ ls, Scalar.eqb l.noiseParams.scaleNoise 0 = false → (l.createBufferedAlphaNoise n).res = .ok ()) ∧
      m = (if ls.any loud then noisyMode mode else mode) ∧ ls' = ls.map (noiseReady n) := by
  induction ls generalizing mode ls' with
  | nil =>
    simp only [solverLoop, Out.ok, Out.mk.injEq, Except.ok.injEq, List.not_mem_nil, List.any_nil, List.map_nil]
    exact ⟨fun h => ⟨fun _ h => h.elim, h.1.symm, h.2.symm⟩, fun h => ⟨h.2.1.symm, h.2.2.symm⟩⟩
  | cons l ls ih =>
    unfold solverLoop
    dsimp only
    by_cases hs : Scalar.eqb l.noiseParams.scaleNoise 0 = true
    · rw [if_pos hs]
      have hp : noiseReady n l = l := by unfold noiseReady; rw [if_pos hs]
      have hl : loud l = l.temperatureSet := by simp [loud, hs]
      have := ih (if l.temperatureSet = true then noisyMode mode else mode)
      generalize solverLoop n (if l.temperatureSet = true then noisyMode mode else mode) ls = x at this
      rcases x with ⟨r, ls2⟩
      have h2 := this ls2
      simp only [Out.ok, Out.mk.injEq, and_true] at h2
      have hm : (if ls.any loud then noisyMode (if l.temperatureSet = true then noisyMode mode else mode)
            else (if l.temperatureSet = true then noisyMode mode else mode)) =
          (if (l :: ls).any loud then noisyMode mode else mode) := by
        rw [List.any_cons, hl]
        by_cases ht : l.temperatureSet = true
        · simp [ht, noisyMode_idem]
        · simp [ht]
      have h3 := this
      constructor
      · intro h
        simp only [Out.ok, Out.mk.injEq] at h
        obtain ⟨h4, h5, h6⟩ := h2.1 h.1
        refine ⟨?_, by rw [← hm]; exact h5, by rw [← h.2, h6, List.map_cons, hp]⟩
        intro l' hl' hq
        rcases List.mem_cons.1 hl' with rfl | hl'
        · rw [hs] at hq; simp at hq
        · exact h4 l' hl' hq
      · rintro ⟨h4, h5, rfl⟩
        have := (h3 (ls.map (noiseReady n))).2 ⟨fun l' hl' => h4 l' (List.mem_cons_of_mem _ hl'), by rw [hm]; exact h5, rfl⟩
        simp only [Out.ok, Out.mk.injEq] at this
        simp only [Out.ok, Out.mk.injEq, List.map_cons, hp, this.1, this.2, and_self]
    · rw [if_neg hs]
      have hl : loud l = true := by simp [loud, hs]
      have hp : noiseReady n l = (l.createBufferedAlphaNoise n).st := by unfold noiseReady; rw [if_neg hs]
      have hm : (if ls.any loud then noisyMode (noisyMode (if l.temperatureSet = true then noisyMode mode else mode))
            else noisyMode (if l.temperatureSet = true then noisyMode mode else mode)) =
          (if (l :: ls).any loud then noisyMode mode else mode) := by
        rw [List.any_cons, hl]
        by_cases ht : l.temperatureSet = true <;> simp [ht, noisyMode_idem]
      rcases hb : l.createBufferedAlphaNoise n with ⟨r0, l'⟩
      rw [hb] at hp
      cases r0 with
      | error e =>
        simp only [Out.ok, Out.mk.injEq]
        constructor
        · intro h; simp at h
        · rintro ⟨h4, -⟩
          have := h4 l (by simp) (by simpa using hs)
          rw [hb] at this; simp at this
      | ok u =>
        simp only
        have := ih (noisyMode (if l.temperatureSet = true then noisyMode mode else mode))
        generalize solverLoop n (noisyMode (if l.temperatureSet = true then noisyMode mode else mode)) ls = x at this
        rcases x with ⟨r, ls2⟩
        have h2 := this ls2
        simp only [Out.ok, Out.mk.injEq, and_true] at h2
        have h3 := this
        constructor
        · intro h
          simp only [Out.ok, Out.mk.injEq] at h
          obtain ⟨h4, h5, h6⟩ := h2.1 h.1
          refine ⟨?_, by rw [← hm]; exact h5, by rw [← h.2, h6, List.map_cons, hp]⟩
          intro l' hl' hq
          rcases List.mem_cons.1 hl' with rfl | hl'
          · rw [hb]
          · exact h4 l' hl' hq
        · rintro ⟨h4, h5, rfl⟩
          have := (h3 (ls.map (noiseReady n))).2 ⟨fun l' hl' => h4 l' (List.mem_cons_of_mem _ hl'), by rw [hm]; exact h5, rfl⟩
          simp only [Out.ok, Out.mk.injEq] at this
          simp only [Out.ok, Out.mk.injEq, List.map_cons, hp, this.1, this.2, and_self]

/-- helper -/
theorem prepared_turned (n : Nat) (l : Layer T) : noiseReady n (turnedLayer l) = turnedLayer (noiseReady n l) := by
  unfold noiseReady
  rw [show Scalar.eqb (turnedLayer l).noiseParams.scaleNoise 0 = Scalar.eqb l.noiseParams.scaleNoise 0 from rfl, Layer.turned_buffer]
  split <;> rfl

/-- helper -/
theorem getSolver_turned {j j' k : Junction T} (hj : j'.layers = turnedOver j.layers) {mode m : SolverMode} {n : Nat} {r : Runner}
    (h : j.getSolver mode n = .ok (r, m) k) :
    ∃ k', j'.getSolver mode n = .ok (r, m) k' ∧ k'.layers = turnedOver k.layers := by
  unfold getSolver at h ⊢
  split at h
  · simp [Out.ok, Out.fail] at h
  · rename_i m' ls hx
    have hx' : solverLoop n mode j.layers = .ok m' ls := hx
    obtain ⟨h1, h2, h3⟩ := (solverLoop_spec n mode m' j.layers ls).1 hx'
    have : solverLoop n mode j'.layers = .ok m' (turnedOver ls) := by
      rw [hj]
      refine (solverLoop_spec n mode m' _ _).2 ⟨?_, ?_, ?_⟩
      · intro l hl hs
        obtain ⟨x, hx, rfl⟩ := List.mem_map.1 (List.mem_reverse.1 hl)
        rw [Layer.turned_buffer]
        exact h1 x hx hs
      · rw [h2]
        have : (turnedOver j.layers).any loud = j.layers.any loud := by
          unfold turnedOver
          rw [List.any_reverse, List.any_map]; rfl
        rw [this]
      · rw [h3]
        unfold turnedOver
        rw [List.map_reverse, List.map_map, List.map_map]
        congr 2
        funext l
        exact (prepared_turned n l).symm
    rw [this]
    simp only [Out.ok, Out.mk.injEq, Except.ok.injEq, Prod.mk.injEq] at h ⊢
    obtain ⟨⟨h4, h5⟩, h6⟩ := h
    refine ⟨_, ⟨⟨?_, h5⟩, rfl⟩, by rw [← h6]⟩
    rw [← h4]; unfold layerNo; rw [hj]; simp [turnedOver]

/-- helper -/
theorem steps_turned (hc : ∀ a b : T, a + b = b + a) (r : Runner) (dt : T) (n i : Nat) {j j' k : Junction T}
    (hj : j'.layers = turnedOver j.layers) (hs : r = .single → j.layers.length = 1) (h : steps r dt i n j = .ok () k) :
    ∃ k', steps r dt i n j' = .ok () k' ∧ k'.layers = turnedOver k.layers := by
  induction n generalizing i j j' with
  | zero =>
    simp only [steps, Out.ok, Out.mk.injEq, true_and] at h
    exact ⟨j', rfl, by rw [← h, hj]⟩
  | succ n ih =>
    unfold steps at h ⊢
    obtain ⟨_, j1, h1, h2⟩ := Out.bind_eq_ok h
    obtain ⟨k1, e1, e2⟩ := C131_step hc hj hs h1
    rw [e1]
    refine ih (i + 1) e2 (fun hr => ?_) h2
    have := runStep_length j r (Scalar.lit (i : ℚ) * dt) dt
    rw [h1] at this
    rw [← hs hr]; exact this

/-- helper -/
theorem steps_early (r : Runner) (dt : T) {m n i : Nat} {j : Junction T} (h : (steps r dt i n j).res = .ok ()) (hm : m ≤ n) :
    steps r dt i m j = .ok () (steps r dt i m j).st := by
  obtain ⟨q, rfl⟩ := Nat.exists_eq_add_of_le hm
  rw [steps_eq_evolve, evolve_add] at h
  rw [steps_eq_evolve]
  generalize evolve r dt i m j = x at h
  rcases x with ⟨_ | _, k⟩
  · simp [Out.bind] at h
  · rfl

/-- helper -/
theorem magOf_turned (ls : List (Layer T)) {q : Nat} (h : q < ls.length) : magOf (turnedOver ls) (ls.length - 1 - q) = magOf ls q := by
  unfold magOf turnedOver
  rw [List.getElem?_reverse (by simp; omega), List.length_map, show ls.length - 1 - (ls.length - 1 - q) = q by omega,
    List.getElem?_map]
  cases ls[q]? <;> rfl

/-- C131. If the run of a junction succeeds, so does the run of the junction made of the turned stack, and it ends with the turned
layers. Both logs get the same values in the columns of every layer and in the column of the time. The resistances may be of any kind
(`Reachable`: made by a constructor and calls of the library). -/
theorem C131_run (hc : ∀ a b : T, a + b = b + a) {j j' k : Junction T} (hr : Reachable j) (hr' : Reachable j') (hd : DistinctIds j)
    (hj : j'.layers = turnedOver j.layers) {total dt wf : T} {en : Bool} {mode : SolverMode}
    (h : j.runSimulation total dt wf en mode = .ok () k) :
    ∃ k', j'.runSimulation total dt wf en mode = .ok () k' ∧ k'.layers = turnedOver k.layers ∧
      ∀ l ∈ j.layers, ∀ key ∈ [l.id ++ "_mx", l.id ++ "_my", l.id ++ "_mz", "time"],
        ∃ new, k.log.col key = j.log.col key ++ new ∧ k'.log.col key = j'.log.col key ++ new := by
  obtain ⟨hm', -⟩ := Reachable_inv hr'
  obtain ⟨N, W, r, m, j1, hw, hN, hW, hg, hl⟩ := Sim.run_inv h
  obtain ⟨j1', hg', e1⟩ := getSolver_turned hj hg
  have hone : r = .single → j1.layers.length = 1 := by
    intro hr1
    have hp := Sim.getSolver_params j mode N
    rw [hg] at hp
    have hlen : j1.layers.length = j.layers.length := hp.2.2.2.2.2.2.2.2.2.2.2.symm
    rw [hlen]
    unfold getSolver at hg
    split at hg
    · simp [Out.ok, Out.fail] at hg
    · simp only [Out.ok, Out.mk.injEq, Except.ok.injEq, Prod.mk.injEq] at hg
      have := hg.1.1
      rw [hr1] at this
      unfold pickRunner at this
      split at this
      · simp at this
      · split at this
        · simp at this
        · split at this
          · assumption
          · simp at this
  have hp' := Sim.getSolver_params j' mode N
  rw [hg'] at hp'
  obtain ⟨k1, hk1, e2⟩ := runLoop_evolve r dt W en hl rfl
  have hsteps : steps r dt 0 N j1 = .ok () k1 := by rw [steps_eq_evolve, hk1]
  obtain ⟨k1', hk1', e3⟩ := steps_turned hc r dt N 0 e1 hone hsteps
  have hrun : ∃ k', j'.runSimulation total dt wf en mode = .ok () k' ∧ k'.layers = turnedOver k.layers := by
    unfold runSimulation
    rw [if_neg (by simp [hw])]
    simp only [hN, hW, hg', Out.bind_ok]
    cases N with
    | zero =>
      refine ⟨j1', rfl, ?_⟩
      simp only [runLoop, Out.ok, Out.mk.injEq, true_and] at hl
      rw [e1, hl]
    | succ n =>
      have hW0 : W ≠ 0 := by
        intro h0
        unfold runLoop at hl
        obtain ⟨-, h2⟩ := bind_unit_ok hl
        rw [if_pos h0] at h2
        simp [Out.ok, Out.fail] at h2
      rw [steps_eq_evolve] at hk1'
      obtain ⟨k', hk', e4⟩ := evolve_runLoop r dt W en hk1' rfl hW0 (hp'.mrOk hm')
      exact ⟨k', hk', by rw [← e4, e3, e2]⟩
  obtain ⟨k', hk', e4⟩ := hrun
  refine ⟨k', hk', e4, ?_⟩
  have hd' : DistinctIds j' := by
    unfold DistinctIds
    rw [hj]
    unfold turnedOver
    rw [List.map_reverse, List.map_map, List.nodup_reverse]
    exact hd
  obtain ⟨N2, W2, r2, m2, j2, a1, a2, a3, -, a5, -, -, a8, a9⟩ := C27_run hr hd h
  obtain ⟨N3, W3, r3, m3, j3, b1, b2, b3, -, b5, -, -, b8, b9⟩ := C27_run hr' hd' hk'
  rw [hN] at a1 b1; cases a1; cases b1
  rw [hW] at a2 b2; cases a2; cases b2
  rw [hg] at a3; cases a3
  rw [hg'] at b3; cases b3
  intro l hlm key hkey
  obtain ⟨q, hq⟩ := List.mem_iff_getElem?.1 hlm
  have hlt := (List.getElem?_eq_some_iff.1 hq).1
  have hq' : j'.layers[j.layers.length - 1 - q]? = some (turnedLayer l) := by
    rw [hj]
    unfold turnedOver
    rw [List.getElem?_reverse (by simp; omega), List.length_map,
      show j.layers.length - 1 - (j.layers.length - 1 - q) = q by omega, List.getElem?_map, hq]
    rfl
  have hmag : ∀ i ∈ sampleSteps N W, magOf (steps r dt 0 (i + 1) j1').st.layers (j.layers.length - 1 - q) =
      magOf (steps r dt 0 (i + 1) j1).st.layers q := by
    intro i hi
    have hi' : i + 1 ≤ N := by simpa using (List.mem_filter.1 hi).1
    have hst := steps_early r dt a5 hi'
    obtain ⟨k2, hk2, e5⟩ := steps_turned hc r dt (i + 1) 0 e1 hone hst
    rw [hk2]
    have hp := Sim.getSolver_params j mode N
    rw [hg] at hp
    have hlen : (steps r dt 0 (i + 1) j1).st.layers.length = j.layers.length := by
      rw [steps_eq_evolve, ← (evolve_same r dt (i + 1) 0 j1).length_eq]
      exact hp.2.2.2.2.2.2.2.2.2.2.2.symm
    change magOf k2.layers _ = _
    rw [e5, ← hlen]
    exact magOf_turned _ (by rw [hlen]; exact hlt)
  have c1 := a9 q l hq
  have c2 := b9 _ _ hq'
  simp only [List.mem_cons, List.not_mem_nil, or_false] at hkey
  rcases hkey with rfl | rfl | rfl | rfl
  · exact ⟨_, c1.1, c2.1.trans (congrArg _ (List.map_congr_left fun i hi => by rw [hmag i hi]))⟩
  · exact ⟨_, c1.2.1, c2.2.1.trans (congrArg _ (List.map_congr_left fun i hi => by rw [hmag i hi]))⟩
  · exact ⟨_, c1.2.2, c2.2.2.trans (congrArg _ (List.map_congr_left fun i hi => by rw [hmag i hi]))⟩
  · exact ⟨_, a8, b8⟩

/-- C131. Turning over twice gives the stack back, so that the run of the turned stack succeeds only if the run of the stack does. -/
theorem C131_twice (ls : List (Layer T)) : turnedOver (turnedOver ls) = ls := by
  unfold turnedOver
  rw [List.map_reverse, List.reverse_reverse, List.map_map]
  conv_rhs => rw [← List.map_id ls]
  congr 1
  funext l
  exact Layer.turned_turned l

/-! ### Couplings and resistances -/

/-- helper -/
theorem couple_at (a b : String) (f g : Layer T → Layer T) (pre post : List (Layer T)) (l0 l1 : Layer T)
    (hn : ((pre ++ l0 :: l1 :: post).map Layer.id).Nodup)
    (hab : (l0.id = a ∧ l1.id = b) ∨ (l0.id = b ∧ l1.id = a)) :
    couplePair a b f g (pre ++ l0 :: l1 :: post) = some (pre ++ f l0 :: g l1 :: post) := by
  induction pre with
  | nil =>
    rw [List.nil_append, couplePair]
    by_cases h : l0.id = a ∧ l1.id = b
    · rw [if_pos h]; rfl
    · rw [if_neg h, if_pos (hab.resolve_left h)]; rfl
  | cons x pre ih =>
    have hn' : ((pre ++ l0 :: l1 :: post).map Layer.id).Nodup := (List.nodup_cons.1 hn).2
    have h0 : x.id ≠ l0.id := fun h => (List.nodup_cons.1 hn).1 (by
      rw [h]; exact List.mem_map_of_mem (by simp))
    have h1 : x.id ≠ l1.id := fun h => (List.nodup_cons.1 hn).1 (by
      rw [h]; exact List.mem_map_of_mem (by simp))
    have ha : x.id ≠ a ∧ x.id ≠ b := by
      rcases hab with ⟨rfl, rfl⟩ | ⟨rfl, rfl⟩
      · exact ⟨h0, h1⟩
      · exact ⟨h1, h0⟩
    have hstep : ∀ (y : Layer T) (ys : List (Layer T)), couplePair a b f g (x :: y :: ys) =
        (couplePair a b f g (y :: ys)).map (x :: ·) := fun y ys => by
      rw [couplePair, if_neg (fun h => ha.1 h.1), if_neg (fun h => ha.2 h.1)]
    have := ih hn'
    cases pre with
    | nil => rw [List.cons_append, List.nil_append, hstep]; rw [List.nil_append] at this; rw [this]; rfl
    | cons y pre => rw [List.cons_append, List.cons_append, hstep, ← List.cons_append, this]; rfl

/-- helper -/
theorem couple_some {a b : String} {f g : Layer T → Layer T} {ls ls' : List (Layer T)} (h : couplePair a b f g ls = some ls') :
    ∃ pre l0 l1 post, ls = pre ++ l0 :: l1 :: post ∧ ls' = pre ++ f l0 :: g l1 :: post ∧
      ((l0.id = a ∧ l1.id = b) ∨ (l0.id = b ∧ l1.id = a)) := by
  induction ls generalizing ls' with
  | nil => simp [couplePair] at h
  | cons x ls ih =>
    cases ls with
    | nil => simp [couplePair] at h
    | cons y ls =>
      rw [couplePair] at h
      split at h
      · rename_i hx; exact ⟨[], x, y, ls, rfl, (Option.some.inj h).symm, .inl hx⟩
      · split at h
        · rename_i hx; exact ⟨[], x, y, ls, rfl, (Option.some.inj h).symm, .inr hx⟩
        · obtain ⟨r, hr, rfl⟩ := Option.map_eq_some_iff.1 h
          obtain ⟨pre, l0, l1, post, e1, e2, e3⟩ := ih hr
          exact ⟨x :: pre, l0, l1, post, by rw [e1]; rfl, by rw [e2]; rfl, e3⟩

/-- helper -/
theorem couple_turned (a b : String) (f g : Layer T → Layer T) (hf : ∀ l, turnedLayer (f l) = g (turnedLayer l))
    (hg : ∀ l, turnedLayer (g l) = f (turnedLayer l)) {j j' k : Junction T} (hd : DistinctIds j) (hj : j'.layers = turnedOver j.layers)
    (h : j.coupling a b f g = .ok () k) : ∃ k', j'.coupling a b f g = .ok () k' ∧ k'.layers = turnedOver k.layers := by
  unfold coupling at h
  split at h
  · rename_i ls hx
    obtain ⟨pre, l0, l1, post, e1, e2, e3⟩ := couple_some hx
    simp only [Out.ok, Out.mk.injEq, true_and] at h
    have e4 : j'.layers = turnedOver post ++ turnedLayer l1 :: turnedLayer l0 :: turnedOver pre := by
      rw [hj, e1]; simp [turnedOver]
    have hn : ((turnedOver post ++ turnedLayer l1 :: turnedLayer l0 :: turnedOver pre).map Layer.id).Nodup := by
      rw [← e4, hj]
      unfold turnedOver
      rw [List.map_reverse, List.map_map, List.nodup_reverse]
      exact hd
    have := couple_at a b f g (turnedOver post) (turnedOver pre) (turnedLayer l1) (turnedLayer l0) hn
      (e3.symm.imp (fun q => ⟨q.2, q.1⟩) (fun q => ⟨q.2, q.1⟩))
    unfold coupling
    rw [e4, this]
    refine ⟨_, rfl, ?_⟩
    rw [← h, e2]
    simp [turnedOver, hf, hg]
  · simp [Out.ok, Out.fail] at h

/-- C131. Couplings are set in the turned stack by the same calls: the pair of layers is named, not the side. -/
theorem C131_couplings {j j' : Junction T} (hd : DistinctIds j) (hj : j'.layers = turnedOver j.layers) (a b : String) (d : ScalarDriver T)
    (D : AxialDriver T) :
    (∀ k, j.setIECDriver a b d = .ok () k → ∃ k', j'.setIECDriver a b d = .ok () k' ∧ k'.layers = turnedOver k.layers) ∧
    (∀ k, j.setQuadIECDriver a b d = .ok () k → ∃ k', j'.setQuadIECDriver a b d = .ok () k' ∧ k'.layers = turnedOver k.layers) ∧
    (∀ k, j.setIDMIDriver a b D = .ok () k → ∃ k', j'.setIDMIDriver a b D = .ok () k' ∧ k'.layers = turnedOver k.layers) :=
  ⟨fun _ h => couple_turned a b (·.setIECDriverTop d) (·.setIECDriverBottom d) (fun _ => rfl) (fun _ => rfl) hd hj h,
    fun _ h => couple_turned a b (·.setQuadIECDriverTop d) (·.setQuadIECDriverBottom d) (fun _ => rfl) (fun _ => rfl) hd hj h,
    fun _ h => couple_turned a b (·.setIDMIDriverTop D) (·.setIDMIDriverBottom D) (fun _ => rfl) (fun _ => rfl) hd hj h⟩

/-- helper -/
theorem getD_reverse {xs : List ℝ} {n q : Nat} (h : xs.length = n) (hq : q < n) : xs.reverse.getD (n - 1 - q) 0 = xs.getD q 0 := by
  rw [List.getD_eq_getElem?_getD, List.getElem?_reverse (by omega), List.getD_eq_getElem?_getD]
  congr 2; omega

/-- C131. The resistance does not depend on the side from which the stack is listed, for all kinds of junctions (real arithmetic); the
parameters of a strip are listed in the order of its layers. -/
theorem C131_resistance {j j' : Junction ℝ} (hj : j'.layers = turnedOver j.layers) (hm : j'.mrMode = j.mrMode) (hp : j'.Rp = j.Rp)
    (hap : j'.Rap = j.Rap) (hok : j.MrOk) (h1 : j'.Rx0 = j.Rx0.reverse) (h2 : j'.Ry0 = j.Ry0.reverse) (h3 : j'.AMR_X = j.AMR_X.reverse)
    (h4 : j'.AMR_Y = j.AMR_Y.reverse) (h5 : j'.SMR_X = j.SMR_X.reverse) (h6 : j'.SMR_Y = j.SMR_Y.reverse) (h7 : j'.AHE = j.AHE.reverse) :
    j'.getMagnetoresistance = j.getMagnetoresistance := by
  have hlen : j'.layers.length = j.layers.length := by rw [hj]; simp [turnedOver]
  cases hmode : j.mrMode with
  | NONE => unfold getMagnetoresistance; rw [hm, hmode]
  | CLASSIC =>
    unfold getMagnetoresistance calculateMagnetoresistance
    rw [hm, hmode, hj, hp, hap]
    rcases hl : j.layers with _ | ⟨l0, _ | ⟨l1, _ | ⟨l2, ls⟩⟩⟩
    · rfl
    · rfl
    · have e : (turnedLayer l1).mag.dot (turnedLayer l0).mag = l0.mag.dot l1.mag := by
        simp only [turnedLayer, CVec.dot]
        rw [mul_comm l1.mag.x, mul_comm l1.mag.y, mul_comm l1.mag.z]
      simp only [turnedOver, List.map_cons, List.map_nil, List.reverse_cons, List.reverse_nil, List.nil_append, List.cons_append, e]
    · have : ∃ a b c r, turnedOver (l0 :: l1 :: l2 :: ls) = a :: b :: c :: r := by
        have h3 : 3 ≤ (turnedOver (l0 :: l1 :: l2 :: ls)).length := by simp [turnedOver]
        generalize turnedOver (l0 :: l1 :: l2 :: ls) = x at h3
        rcases x with _ | ⟨a, _ | ⟨b, _ | ⟨c, r⟩⟩⟩
        · simp at h3
        · simp at h3
        · simp at h3
        · exact ⟨a, b, c, r, rfl⟩
      obtain ⟨a, b, c, r, e⟩ := this
      rw [e]
  | STRIP =>
    obtain ⟨t1, t2, t3, t4, t5, t6, t7⟩ := hok hmode
    have hok' : j'.MrOk := fun _ => by
      rw [h1, h2, h3, h4, h5, h6, h7, hlen]; simp [t1, t2, t3, t4, t5, t6, t7]
    rw [C26_parallel j hmode hok, C26_parallel j' (hm.trans hmode) hok', hlen]
    have hmag : ∀ q, q < j.layers.length → magAt j' (j.layers.length - 1 - q) = magAt j q := by
      intro q hq
      have := magOf_turned j.layers hq
      have e1 : (turnedOver j.layers)[j.layers.length - 1 - q]? = some (turnedLayer (j.layers[q])) := by
        unfold turnedOver
        rw [List.getElem?_reverse (by simp; omega), List.length_map,
          show j.layers.length - 1 - (j.layers.length - 1 - q) = q by omega, List.getElem?_map, List.getElem?_eq_getElem hq]
        rfl
      unfold magAt; rw [hj, e1, List.getElem?_eq_getElem hq]; rfl
    have key : ∀ R R' : Nat → ℝ, (∀ q, q < j.layers.length → R' (j.layers.length - 1 - q) = R q) →
        parallel j.layers.length R' = parallel j.layers.length R := by
      intro R R' h
      unfold parallel
      rw [← Finset.sum_range_reflect]
      congr 1
      exact Finset.sum_congr rfl fun q hq => by rw [h q (Finset.mem_range.1 hq)]
    rw [key (stripRx j) (stripRx j') (fun q hq => by
        unfold stripRx
        rw [hmag q hq, h1, h3, h5, getD_reverse t1 hq, getD_reverse t3 hq, getD_reverse t5 hq]),
      key (stripRy j) (stripRy j') (fun q hq => by
        unfold stripRy
        rw [hmag q hq, h2, h7, h4, h6, getD_reverse t2 hq, getD_reverse t7 hq, getD_reverse t4 hq, getD_reverse t6 hq])]

/-- helper: two different coupled layers -/
noncomputable def coupledPair : List (Layer ℝ) :=
  [{ quietLayer with IECDriverTop := .constantDriver 1, dipoleTop := ⟨⟨1, 0, 0⟩, ⟨0, 0, 0⟩, ⟨0, 0, 0⟩⟩ },
   { quietLayer with id := "upper", IECDriverBottom := .constantDriver 1, Ms := 2 }]

/-- helper -/
noncomputable def pairJ : Junction ℝ := { demoJ with layers := coupledPair, mrMode := .NONE }

/-- helper -/
noncomputable def pairJ' : Junction ℝ := { demoJ with layers := turnedOver coupledPair, mrMode := .NONE }

example : Reachable pairJ ∧ Reachable pairJ' ∧ DistinctIds pairJ ∧ pairJ'.layers = turnedOver pairJ.layers ∧
    pairJ'.layers ≠ pairJ.layers ∧ ∃ k, pairJ.runSimulation 7 1 3 true .RK4 = .ok () k := by
  have hr : Reachable pairJ := ⟨pairJ, [], .inl ⟨coupledPair, by simp [plain, coupledPair, pairJ, demoJ]⟩, rfl⟩
  refine ⟨hr, ⟨pairJ', [], .inl ⟨turnedOver coupledPair, by simp [plain, coupledPair, pairJ', demoJ, turnedOver]⟩, rfl⟩, ?_, rfl, ?_, ?_⟩
  · simp [DistinctIds, pairJ, coupledPair, quietLayer, plainOf, Layer.demo]
  · intro h
    have := congrArg (fun ls => ls.map Layer.id) h
    simp [pairJ', pairJ, coupledPair, turnedOver, turnedLayer, quietLayer, plainOf, Layer.demo] at this
  · exact C27_completes pairJ hr (by simp [pairJ, coupledPair, quietLayer, plainOf, Layer.demo])
      (by simp [pairJ, coupledPair, quietLayer, plainOf, Layer.demo, Noisy]) 7 1 3 true .RK4 (by norm_num) (by norm_num)
      (by norm_num) (by norm_num) (by norm_num)

/-- The same call couples the layers of both. -/
example (d : ScalarDriver ℝ) : ∃ k, pairJ.setIECDriver "free" "upper" d = .ok () k :=
  ⟨_, by simp [setIECDriver, coupling, couplePair, pairJ, coupledPair, quietLayer, plainOf, Layer.demo]; rfl⟩

end Junction
