import Verif.Lemmas.Exec
import Verif.Lemmas.Layer
import Mathlib.Data.List.Forall2

/-!
Relational reasoning about solver steps: two runs whose layers are related step by step stay related.
Helper lemmas only.
-/

set_option linter.unusedSectionVars false

/-- Two outcomes agree: both return related values or both throw the same error; the objects are related. -/
inductive OutRel {σ τ α β : Type} (Q : α → β → Prop) (R : σ → τ → Prop) : Out σ α → Out τ β → Prop
  | ok {a b s s'} (hq : Q a b) (hr : R s s') : OutRel Q R (.ok a s) (.ok b s')
  | fail {e s s'} (hr : R s s') : OutRel Q R (.fail e s) (.fail e s')

namespace OutRel
variable {σ τ α β γ δ : Type} {Q : α → β → Prop} {Q' : γ → δ → Prop} {R : σ → τ → Prop}

theorem bind {x : Out σ α} {y : Out τ β} {f : α → σ → Out σ γ} {g : β → τ → Out τ δ} (h : OutRel Q R x y)
    (hf : ∀ a b s s', Q a b → R s s' → OutRel Q' R (f a s) (g b s')) : OutRel Q' R (x.bind f) (y.bind g) := by
  cases h with
  | ok hq hr => exact hf _ _ _ _ hq hr
  | fail hr => exact .fail hr

theorem traverse (f : Nat → σ → Out σ α) (g : Nat → τ → Out τ β) {as : List σ} {bs : List τ} (i : Nat)
    (hf : ∀ k a b, as[k]? = some a → bs[k]? = some b → R a b → OutRel Q R (f (i + k) a) (g (i + k) b))
    (h : List.Forall₂ R as bs) :
    OutRel (List.Forall₂ Q) (List.Forall₂ R) (Out.traverse f i as) (Out.traverse g i bs) := by
  induction h generalizing i with
  | nil => exact .ok .nil .nil
  | @cons a b as bs hab hr ih =>
    have h0 := hf 0 a b (by simp) (by simp) hab
    have h1 := ih (i + 1) (fun k x y hx hy hxy => by
      have := hf (k + 1) x y (by simpa using hx) (by simpa using hy) hxy
      rwa [show i + 1 + k = i + (k + 1) by ring])
    simp only [Nat.add_zero] at h0
    simp only [Out.traverse]
    generalize f i a = x at h0
    generalize g i b = y at h0
    generalize Out.traverse f (i + 1) as = z at h1
    generalize Out.traverse g (i + 1) bs = w at h1
    cases h0 with
    | fail hr0 => exact .fail (.cons hr0 hr)
    | ok hq0 hr0 =>
      cases h1 with
      | fail hr1 => exact .fail (.cons hr0 hr1)
      | ok hq1 hr1 => exact .ok (.cons hq0 hq1) (.cons hr0 hr1)

theorem ok_left {x : Out σ α} {y : Out τ β} (h : OutRel Q R x y) {a : α} {s : σ} (e : x = .ok a s) :
    ∃ b s', y = .ok b s' ∧ Q a b ∧ R s s' := by
  cases h with
  | ok hq hr =>
    simp only [Out.ok, Out.mk.injEq, Except.ok.injEq] at e
    obtain ⟨rfl, rfl⟩ := e
    exact ⟨_, _, rfl, hq, hr⟩
  | fail hr => simp [Out.ok, Out.fail] at e

theorem st {x : Out σ α} {y : Out τ β} (h : OutRel Q R x y) : R x.st y.st := by cases h <;> assumption

end OutRel

namespace List
variable {α β : Type} {R : α → β → Prop}
theorem Forall₂.getD {as : List α} {bs : List β} (h : Forall₂ R as bs) {a : α} {b : β} (h0 : R a b) (i : Nat) :
    R (as.getD i a) (bs.getD i b) := by
  induction h generalizing i with
  | nil => simpa
  | cons hab _ ih => cases i with
    | zero => simpa
    | succ i => simpa using ih i

theorem Forall₂.getElem?_some {as : List α} {bs : List β} (h : Forall₂ R as bs) {i : Nat} {a : α}
    (ha : as[i]? = some a) : ∃ b, bs[i]? = some b ∧ R a b := by
  induction h generalizing i with
  | nil => simp at ha
  | cons hab _ ih => cases i with
    | zero => simp at ha; subst ha; exact ⟨_, by simp, hab⟩
    | succ i => simp at ha; simpa using ih ha

theorem Forall₂.of_getElem? {as : List α} {bs : List β} (hl : as.length = bs.length)
    (h : ∀ (i : Nat) a b, as[i]? = some a → bs[i]? = some b → R a b) : Forall₂ R as bs := by
  induction as generalizing bs with
  | nil => cases bs with
    | nil => exact .nil
    | cons => simp at hl
  | cons a as ih => cases bs with
    | nil => simp at hl
    | cons b bs =>
      refine .cons (h 0 a b (by simp) (by simp)) (ih (by simpa using hl) ?_)
      intro i x y hx hy
      exact h (i + 1) x y (by simpa using hx) (by simpa using hy)
end List

/-- What a layer relation `R`, with a vector relation `V` and a time relation `TT`, must satisfy for solver
steps to preserve it. -/
structure Sim (T : Type) [Scalar T] (R : Layer T → Layer T → Prop) (V : CVec T → CVec T → Prop)
    (TT : T → T → Prop) : Prop where
  mag : ∀ {l l'}, R l l' → V l.mag l'.mag
  setMag : ∀ {l l' m m'}, R l l' → V m m' → R (l.setMag m.normalize) (l'.setMag m'.normalize)
  llg : ∀ {l l' t t' m m' b b' a a'}, R l l' → TT t t' → V m m' → V b b' → V a a' →
    OutRel V R (l.llg t m b a) (l'.llg t' m' b' a')
  langevin : ∀ {l l' t t'}, R l l' → TT t t' → OutRel V R (l.langevinVector t) (l'.langevinVector t')
  oneF : ∀ {l l'}, R l l' → OutRel V R l.oneFVector l'.oneFVector
  stoch : ∀ {l l' m m' w w'}, R l l' → V m m' → V w w' → V (l.stochasticTorque m w) (l'.stochasticTorque m' w')
  zero : V .zero .zero
  add : ∀ {a a' b b'}, V a a' → V b b' → V (a + b) (a' + b')
  mul : ∀ {a a'} (s : T), V a a' → V (a * s) (a' * s)
  lmul : ∀ {a a'} (s : T), V a a' → V (s * a) (s * a')
  div6 : ∀ {a a'} (s : T), V a a' → V (a.divU s) (a'.divU s)
  nan : ∀ {m m'}, V m m' → Scalar.isNan m.normalize.x = Scalar.isNan m'.normalize.x
  time : ∀ {t t'} (s : T), TT t t' → TT (t + s) (t' + s)

namespace Sim
variable {T : Type} [Scalar T] {R : Layer T → Layer T → Prop} {V : CVec T → CVec T → Prop} {TT : T → T → Prop}

theorem rk4 (S : Sim T R V TT) {l l' : Layer T} {t t' : T} (dt : T) {b b' a a' : CVec T} (hr : R l l') (ht : TT t t')
    (hb : V b b') (ha : V a a') :
    OutRel (fun _ _ => True) R (l.rk4Step t dt b a) (l'.rk4Step t' dt b' a') := by
  have hm := S.mag hr
  unfold Layer.rk4Step
  generalize l.mag = m at hm
  generalize l'.mag = m' at hm
  refine (S.llg hr ht hm hb ha).bind fun f1 f1' l1 l1' h1 r1 => ?_
  have k1 := S.mul dt h1
  refine (S.llg r1 (S.time _ ht) (S.add hm (S.mul _ k1)) hb ha).bind fun f2 f2' l2 l2' h2 r2 => ?_
  have k2 := S.mul dt h2
  refine (S.llg r2 (S.time _ ht) (S.add hm (S.mul _ k2)) hb ha).bind fun f3 f3' l3 l3' h3 r3 => ?_
  have k3 := S.mul dt h3
  refine (S.llg r3 (S.time _ ht) (S.add hm k3) hb ha).bind fun f4 f4' l4 l4' h4 r4 => ?_
  have k4 := S.mul dt h4
  have hc : V (Layer.rk4Combine m (f1 * dt) (f2 * dt) (f3 * dt) (f4 * dt))
      (Layer.rk4Combine m' (f1' * dt) (f2' * dt) (f3' * dt) (f4' * dt)) := by
    unfold Layer.rk4Combine
    exact S.add hm (S.div6 6.0 (S.add (S.add (S.add k1 (S.mul _ k2)) (S.mul _ k3)) k4))
  dsimp only
  generalize Layer.rk4Combine m (f1 * dt) (f2 * dt) (f3 * dt) (f4 * dt) = u at hc
  generalize Layer.rk4Combine m' (f1' * dt) (f2' * dt) (f3' * dt) (f4' * dt) = u' at hc
  have hn := S.nan hc
  have hs := S.setMag r4 hc
  have e1 : (l4.setMag u.normalize).mag = u.normalize := rfl
  have e2 : (l4'.setMag u'.normalize).mag = u'.normalize := rfl
  rw [e1, e2, hn]
  split
  · exact .fail hs
  · exact .ok trivial hs

theorem mags (S : Sim T R V TT) {ls ls' : List (Layer T)} (h : List.Forall₂ R ls ls') :
    List.Forall₂ V (ls.map Layer.mag) (ls'.map Layer.mag) := by
  induction h with
  | nil => exact .nil
  | cons hab _ ih => exact .cons (S.mag hab) ih

theorem below (S : Sim T R V TT) {ms ms' : List (CVec T)} (h : List.Forall₂ V ms ms') (i : Nat) :
    V (Junction.below ms i) (Junction.below ms' i) := by
  unfold Junction.below; split
  · exact S.zero
  · exact h.getD S.zero _

theorem above (S : Sim T R V TT) {ms ms' : List (CVec T)} (h : List.Forall₂ V ms ms') (i : Nat) :
    V (Junction.above ms i) (Junction.above ms' i) := by
  unfold Junction.above; rw [h.length_eq]; split
  · exact S.zero
  · exact h.getD S.zero _

theorem eulerHeun (S : Sim T R V TT) {l l' : Layer T} {t t' : T} (dt : T) {ms ms' : List (CVec T)} (i : Nat)
    (hr : R l l') (ht : TT t t') (hms : List.Forall₂ V ms ms') :
    OutRel V R (Junction.eulerHeunLayer ms t dt i l) (Junction.eulerHeunLayer ms' t' dt i l') := by
  unfold Junction.eulerHeunLayer
  refine (S.langevin hr ht).bind fun w1 w1' l1 l1' hw1 r1 => ?_
  refine (S.oneF r1).bind fun w2 w2' l2 l2' hw2 r2 => ?_
  refine (S.llg r2 ht (S.mag r2) (S.below hms i) (S.above hms i)).bind fun f f' l3 l3' hf r3 => ?_
  have hm := S.mag r3
  have hw := S.add hw1 hw2
  have hg := S.stoch r3 hm hw
  exact .ok (S.add (S.add hm (S.mul _ hf)) (S.mul _ (S.lmul _ (S.add hg (S.stoch r3 (S.add hm (S.mul _ hg)) hw))))) r3

theorem storeMags (S : Sim T R V TT) {ls ls' : List (Layer T)} {ms ms' : List (CVec T)} (h : List.Forall₂ R ls ls')
    (hm : List.Forall₂ V ms ms') : List.Forall₂ R (Junction.storeMags ls ms) (Junction.storeMags ls' ms') := by
  induction h generalizing ms ms' with
  | nil => cases hm <;> exact .nil
  | cons hab hl ih =>
    cases hm with
    | nil => exact .cons hab hl
    | cons h1 h2 => exact .cons (S.setMag hab h1) (ih h2)

/-- Relation between the intermediate values of a Heun step. -/
def StageRel (V : CVec T → CVec T → Prop) (s s' : Junction.HeunStage T) : Prop :=
  V s.fn s'.fn ∧ V s.gn s'.gn ∧ V s.dW s'.dW ∧ V s.mNext s'.mNext

theorem predict (S : Sim T R V TT) {l l' : Layer T} {t t' : T} (dt : T) {ms ms' : List (CVec T)} (i : Nat)
    (hr : R l l') (ht : TT t t') (hms : List.Forall₂ V ms ms') :
    OutRel (StageRel V) R (Junction.heunPredict ms t dt i l) (Junction.heunPredict ms' t' dt i l') := by
  unfold Junction.heunPredict
  refine (S.llg hr ht (S.mag hr) (S.below hms i) (S.above hms i)).bind fun f f' l1 l1' hf r1 => ?_
  refine (S.langevin r1 ht).bind fun w1 w1' l2 l2' hw1 r2 => ?_
  refine (S.oneF r2).bind fun w2 w2' l3 l3' hw2 r3 => ?_
  have hm := S.mag r3
  have hw := S.add hw1 hw2
  have hg := S.stoch r3 hm hw
  exact .ok ⟨hf, hg, hw, S.add (S.add hm (S.mul _ hf)) (S.mul _ hg)⟩ r3

theorem correct (S : Sim T R V TT) {l l' : Layer T} {t t' : T} (dt : T) {ss ss' : List (Junction.HeunStage T)} (i : Nat)
    (hr : R l l') (ht : TT t t') (hss : List.Forall₂ (StageRel V) ss ss') :
    OutRel (fun _ _ => True) R (Junction.heunCorrect ss t dt i l) (Junction.heunCorrect ss' t' dt i l') := by
  have hn : List.Forall₂ V (ss.map Junction.HeunStage.mNext) (ss'.map Junction.HeunStage.mNext) := by
    induction hss with
    | nil => exact .nil
    | cons hab _ ih => exact .cons hab.2.2.2 ih
  unfold Junction.heunCorrect
  rcases hs : ss[i]? with _ | s
  · have : ss'[i]? = none := by
      rw [List.getElem?_eq_none_iff] at hs ⊢; rw [← hss.length_eq]; exact hs
    simp only [this]
    exact .fail hr
  · obtain ⟨s', hs', hsr⟩ := hss.getElem?_some hs
    simp only [hs']
    refine (S.llg hr (S.time _ ht) hsr.2.2.2 (S.below hn i) (S.above hn i)).bind fun f f' l1 l1' hf r1 => ?_
    exact .ok trivial (S.setMag r1 (S.add (S.add (S.mag r1) (S.lmul _ (S.add hsr.1 hf)))
      (S.mul _ (S.lmul _ (S.add hsr.2.1 (S.stoch r1 hsr.2.2.2 hsr.2.2.1))))))

theorem magCopies (S : Sim T R V TT) {ls ls' : List (Layer T)} (h : List.Forall₂ R ls ls') :
    List.Forall₂ V (Junction.magCopies ls) (Junction.magCopies ls') := by
  unfold Junction.magCopies
  exact .cons S.zero (List.rel_append (S.mags h) (.cons S.zero .nil))

/-- One solver step on related junctions. -/
theorem step (S : Sim T R V TT) {j j' : Junction T} (r : Junction.Runner) {t t' : T} (dt : T) (ht : TT t t')
    (h : List.Forall₂ R j.layers j'.layers) :
    OutRel (fun _ _ => True) (fun k k' : Junction T => List.Forall₂ R k.layers k'.layers)
      (j.runStep r t dt) (j'.runStep r t' dt) := by
  cases r with
  | single =>
    unfold Junction.runStep Junction.runSingleLayerSolver
    dsimp only
    cases hl : j.layers with
    | nil =>
      rw [hl] at h
      cases hl' : j'.layers with
      | nil => exact .fail (by rw [hl, hl']; exact .nil)
      | cons => rw [hl'] at h; cases h
    | cons l ls =>
      rw [hl] at h
      cases hl' : j'.layers with
      | nil => rw [hl'] at h; cases h
      | cons l' ls' =>
        rw [hl'] at h
        cases h with
        | cons h1 h2 =>
          have := S.rk4 dt h1 ht S.zero S.zero
          dsimp only
          generalize l.rk4Step t dt .zero .zero = x at this
          generalize l'.rk4Step t' dt .zero .zero = y at this
          cases this with
          | ok hq hr => exact .ok trivial (.cons hr h2)
          | fail hr => exact .fail (.cons hr h2)
  | multi =>
    unfold Junction.runStep Junction.runMultiLayerSolver
    dsimp only
    have hc := S.magCopies h
    have := OutRel.traverse (Q := fun _ _ => True) (R := R)
      (fun i l => l.rk4Step t dt ((Junction.magCopies j.layers).getD i .zero) ((Junction.magCopies j.layers).getD (i + 2) .zero))
      (fun i l => l.rk4Step t' dt ((Junction.magCopies j'.layers).getD i .zero) ((Junction.magCopies j'.layers).getD (i + 2) .zero))
      0 (fun k a b _ _ hab => S.rk4 dt hab ht (hc.getD S.zero _) (hc.getD S.zero _)) h
    generalize Out.traverse _ 0 j.layers = x at this
    generalize Out.traverse _ 0 j'.layers = y at this
    cases this with
    | ok hq hr => exact .ok trivial hr
    | fail hr => exact .fail hr
  | heun =>
    unfold Junction.runStep Junction.heunSolverStep
    dsimp only
    have := OutRel.traverse (Q := StageRel V) (R := R) (Junction.heunPredict (j.layers.map Layer.mag) t dt)
      (Junction.heunPredict (j'.layers.map Layer.mag) t' dt) 0
      (fun k a b _ _ hab => S.predict dt _ hab ht (S.mags h)) h
    generalize Out.traverse _ 0 j.layers = x at this
    generalize Out.traverse _ 0 j'.layers = y at this
    cases this with
    | fail hr => exact .fail hr
    | @ok ss ss' ls ls' hq hr =>
      have := OutRel.traverse (Q := fun _ _ => True) (R := R) (Junction.heunCorrect ss t dt)
        (Junction.heunCorrect ss' t' dt) 0 (fun k a b _ _ hab => S.correct dt _ hab ht hq) hr
      dsimp only [Out.ok]
      generalize Out.traverse _ 0 ls = x at this
      generalize Out.traverse _ 0 ls' = y at this
      cases this with
      | ok hq hr => exact .ok trivial hr
      | fail hr => exact .fail hr
  | eulerHeun =>
    unfold Junction.runStep Junction.eulerHeunSolverStep
    dsimp only
    have := OutRel.traverse (Q := V) (R := R) (Junction.eulerHeunLayer (j.layers.map Layer.mag) t dt)
      (Junction.eulerHeunLayer (j'.layers.map Layer.mag) t' dt) 0
      (fun k a b _ _ hab => S.eulerHeun dt _ hab ht (S.mags h)) h
    generalize Out.traverse _ 0 j.layers = x at this
    generalize Out.traverse _ 0 j'.layers = y at this
    cases this with
    | fail hr => exact .fail hr
    | ok hq hr => exact .ok trivial (S.storeMags hr hq)

end Sim
