import Verif.Lemmas.StackConv
import Verif.Props.StackExamples
import Verif.Props.ConvergenceGroups

/-!
C135: runs of stacks of junctions converge to the solution of the coupled equations of motion.
-/

set_option linter.unusedSectionVars false
set_option linter.unusedSimpArgs false

namespace Stack
open Spec Order Junction

section
variable (s : Stack ℝ)

/-- helper: number of layers of the members -/
abbrev sizes (i : Fin s.junctions.length) : Nat := s.junctions[i].layers.length

/-- helper: layers of the members -/
def parts (i : Fin s.junctions.length) (k : Fin (s.sizes i)) : Layer ℝ := s.junctions[i].layers[k]

/-- helper: the layers of member `i` when the current has the factor `w` -/
noncomputable def lay (i : Fin s.junctions.length) (w : ℝ) (k : Fin (s.sizes i)) : Layer ℝ :=
  driven (scaled s.currentDriver w (phaseOf s i.1)) (s.parts i k)

/-- helper: `u` is the stack `s` with the magnetisations `M` -/
structure Holds (M : ∀ i, Fin (s.sizes i) → V) (u : Stack ℝ) : Prop where
  frame : Frame s u
  rigid : List.Forall₂ Rigid s.junctions u.junctions
  member : ∀ i, ∃ (j : Junction ℝ) (e : Fin (s.sizes i) → ScalarDriver ℝ), u.junctions[i.1]? = some j ∧
    Carries (fun k => driven (e k) (s.parts i k)) (M i) j.layers

end

variable {s : Stack ℝ} {top bot : Nat → Nat}

/-- helper -/
theorem layer_of (i : Fin s.junctions.length) (k : Fin (s.sizes i)) : stackLayer s i.1 k.1 = some (s.parts i k) := by
  unfold stackLayer
  rw [List.getElem?_eq_getElem i.2, Option.bind_some]
  exact List.getElem?_eq_getElem k.2

/-- helper: the named layer of a member -/
theorem carried_mag {i : Fin s.junctions.length} {M : Fin (s.sizes i) → V} {u : Stack ℝ} {j : Junction ℝ} {e : Fin (s.sizes i) → ScalarDriver ℝ}
    (hj : u.junctions[i.1]? = some j) (hc : Carries (fun k => driven (e k) (s.parts i k)) M j.layers) {id : String} {p : Nat}
    (hp : FirstNamed id s.junctions[i] p) : ∃ hk : p < s.sizes i, memberMag u id i.1 = ofV (M ⟨p, hk⟩) := by
  obtain ⟨l, h1, h2, h3⟩ := hp
  have hk : p < s.sizes i := (List.getElem?_eq_some_iff.1 h1).1
  have hl : s.parts i ⟨p, hk⟩ = l := (List.getElem?_eq_some_iff.1 h1).2
  refine ⟨hk, ?_⟩
  obtain ⟨d, hd⟩ := hc.2 ⟨p, hk⟩
  have hn : layerNamed id j = some (((driven (e ⟨p, hk⟩) (s.parts i ⟨p, hk⟩)).setCache d).setMag (ofV (M ⟨p, hk⟩))) := by
    refine GroupInteraction.named_first hd ?_ ?_
    · show (s.parts i ⟨p, hk⟩).id = id
      rw [hl, h2]
    · intro q hq l' hl'
      obtain ⟨hq', d', rfl⟩ := hc.get hl'
      show (s.parts i ⟨q, hq'⟩).id ≠ id
      exact h3 q hq _ (List.getElem?_eq_getElem hq')
  unfold memberMag
  rw [hj, Option.bind_some, hn]
  rfl

/-- helper -/
theorem Holds.mag {M : ∀ i, Fin (s.sizes i) → V} {u : Stack ℝ} (h : Holds s M u) {id : String} {i p : Nat} (hi : i < s.junctions.length)
    (hp : FirstNamed id s.junctions[i] p) : memberMag u id i = magAt M i p := by
  obtain ⟨j, e, h1, h2⟩ := h.member ⟨i, hi⟩
  obtain ⟨hk, hm⟩ := carried_mag h1 h2 hp
  exact hm.trans (magAt_eq M ⟨i, hi⟩ ⟨p, hk⟩).symm

/-- helper -/
theorem rigid_ref {u : Stack ℝ} (hf : Frame s u) (h : List.Forall₂ Rigid s.junctions u.junctions) (k : Nat) :
    memberRef u u.topId k = memberRef s s.topId k := by
  rw [hf.2.1]
  unfold memberRef
  rcases hk : s.junctions[k]? with _ | j
  · have : u.junctions[k]? = none := by
      rw [List.getElem?_eq_none_iff, ← h.length_eq]; exact List.getElem?_eq_none_iff.1 hk
    rw [this]
  · obtain ⟨j', hj', hr⟩ := forall₂_get h hk
    have := refOf_rigid hr s.topId
    unfold refOf at this
    rw [hj', Option.bind_some, Option.bind_some, this]

/-- helper: what a step does, the factors being identified by `f` -/
theorem step_runs {u u' : Stack ℝ} {r : Runner} {two : Bool} {t dt : ℝ} {vs : List (ℝ × ℝ)}
    (h : u.step r two t dt = .ok vs u') (f : Nat → ℝ)
    (hf : ∀ fr, u.freeze two = .ok fr → ∀ (k : Nat) (p j : Junction ℝ) (x : ℝ), u'.junctions[k]? = some p → u.junctions[k + 1]? = some j →
      u.couplingFactor fr (k + 1) (some p) j = .ok x → x = f k) (i : Nat) (j : Junction ℝ) (hj : u.junctions[i]? = some j) :
    ∃ j', u'.junctions[i]? = some j' ∧
      (j.carry (scaled u.currentDriver (∏ k ∈ Finset.range i, f k) (phaseOf u i))).runStep r t dt = .ok () j' := by
  obtain ⟨fr, js, h1, h2, rfl⟩ := step_ok h
  obtain ⟨l1, l2, e, a1, a2, -, a4⟩ := junctionLoop_ok h2
  have hi : i < u.junctions.length := (List.getElem?_eq_some_iff.1 hj).1
  have he : e i = ∏ k ∈ Finset.range i, f k := by
    refine product_of e f u.junctions.length ?_ ?_ i hi
    · rw [a2 u.junctions[0] (List.getElem?_eq_getElem (by omega)) rfl]; simp [Scalar.ofNat_real]
    · intro k hk
      have hk2 : k < js.length := by omega
      obtain ⟨x, b1, b2⟩ := a4 k js[k] u.junctions[k + 1] (List.getElem?_eq_getElem hk2) (List.getElem?_eq_getElem hk)
      rw [Nat.zero_add] at b1
      rw [b2, hf fr h1 k _ _ x (List.getElem?_eq_getElem hk2) (List.getElem?_eq_getElem hk) b1]
  obtain ⟨v, j', c1, c2, c3⟩ := a1 i j hj
  rw [Nat.zero_add] at c3
  obtain ⟨d, rest, d1, d2, d3, -⟩ := stepJunction_ok c3
  rw [he] at d1
  rw [mul_ok d1, phase_spec] at d3
  exact ⟨j', c2, d3⟩

/-- helper: one step of one member -/
theorem Holds.one {M : ∀ i, Fin (s.sizes i) → V} {u : Stack ℝ} (h : Holds s M u) (hq : ∀ i k, Quiet (s.parts i k)) {r : Runner}
    (hr : r = .single ∨ r = .multi) (h1 : r = .single → ∀ i, s.sizes i = 1) (t dt : ℝ) (c : Fin s.junctions.length → Y s.sizes × ℝ → ℝ)
    (i : Fin s.junctions.length) {j j' : Junction ℝ} (hj : u.junctions[i.1]? = some j)
    (hs : (j.carry (scaled s.currentDriver (c i ((t, M), dt)) (phaseOf s i.1))).runStep r t dt = .ok () j') :
    Carries (s.lay i (c i ((t, M), dt))) ((renormAll ((t, M) + dt • wholeSlope s.lay (fun i z => c i (z, dt)) (t, M) dt)).2 i) j'.layers := by
  obtain ⟨j0, e, e1, e2⟩ := h.member i
  rw [hj] at e1
  cases e1
  have hcar : Carries (s.lay i (c i ((t, M), dt))) (M i) (j.carry (scaled s.currentDriver (c i ((t, M), dt)) (phaseOf s i.1))).layers := by
    refine ⟨by simpa [carry] using e2.1, fun k => ?_⟩
    obtain ⟨d, hd⟩ := e2.2 k
    refine ⟨d, ?_⟩
    unfold carry
    rw [withLayers_layers, List.getElem?_map, hd, Option.map_some]
    rfl
  obtain ⟨x, x1, x2⟩ := hcar.step (fun k => hq i k) r (fun q => h1 q i) t dt
  rw [hs] at x1
  simp only [Out.ok, Out.mk.injEq, true_and] at x1
  subst x1
  rcases hr with rfl | rfl <;> exact x2

/-- helper: one step -/
theorem Holds.step {M : ∀ i, Fin (s.sizes i) → V} {u u' : Stack ℝ} (h : Holds s M u) (hl : Roles s top bot)
    (h2 : s.delayed = false → TwoLayers s) (hq : ∀ i k, Quiet (s.parts i k)) {r : Runner} (hr : r = .single ∨ r = .multi)
    (h1 : r = .single → ∀ i, s.sizes i = 1) {two : Bool} (ht : u.isTwoLayerMemberStack = .ok two) {t dt : ℝ} {vs : List (ℝ × ℝ)}
    (hs : u.step r two t dt = .ok vs u') :
    Holds s (renormAll ((t, M) + dt • wholeSlope s.lay (fun i z => factor s.lay s top bot i (z, dt)) (t, M) dt)).2 u' := by
  obtain ⟨k1, -, k2⟩ := step_kept kept_rigid u r two t dt
  rw [hs] at k1 k2
  have hfr : Frame s u' := h.frame.trans k1
  have hri : List.Forall₂ Rigid s.junctions u'.junctions := forall₂_trans kept_rigid.trans h.rigid k2
  have hlen : u.junctions.length = s.junctions.length := h.rigid.length_eq.symm
  set c : Fin s.junctions.length → Y s.sizes × ℝ → ℝ := factor s.lay s top bot with hc
  suffices key : ∀ i : Fin s.junctions.length, ∃ j', u'.junctions[i.1]? = some j' ∧
      Carries (s.lay i (c i ((t, M), dt))) ((renormAll ((t, M) + dt • wholeSlope s.lay (fun i z => c i (z, dt)) (t, M) dt)).2 i) j'.layers by
    refine ⟨hfr, hri, fun i => ?_⟩
    obtain ⟨j', a, b⟩ := key i
    exact ⟨j', fun _ => scaled s.currentDriver (c i ((t, M), dt)) (phaseOf s i.1), a, b⟩
  have free : ∀ k (hk : k < s.junctions.length), FirstNamed s.topId s.junctions[k] (top k) := fun k hk =>
    hl.free k _ (List.getElem?_eq_getElem hk)
  have fixed : TwoLayers s → ∀ k (hk : k < s.junctions.length), FirstNamed s.bottomId s.junctions[k] (bot k) := fun h2 k hk =>
    hl.fixed h2 k _ (List.getElem?_eq_getElem hk)
  have atu : ∀ i : Fin s.junctions.length, ∃ j, u.junctions[i.1]? = some j := fun i =>
    ⟨_, List.getElem?_eq_getElem (by rw [hlen]; exact i.2)⟩
  have hkind : u.kind = s.kind := h.frame.1
  have htop : u.topId = s.topId := h.frame.2.1
  have hbot : u.bottomId = s.bottomId := h.frame.2.2.1
  have hdel : u.delayed = s.delayed := h.frame.2.2.2.2.2.1
  have hdrv : u.currentDriver = s.currentDriver := h.frame.2.2.2.2.2.2
  by_cases hd : s.delayed = true
  · intro i
    obtain ⟨j, hj⟩ := atu i
    obtain ⟨j', a, b⟩ := step_runs hs (fun k => 1 + gap u k * alignment u.kind (memberMag u u.topId k) (memberMag u u.topId (k + 1)) (polariserAt u k))
      (fun fr hfr k p j x _ hj hx => factor_delayed ht hfr (hdel.trans hd) (List.getElem?_eq_some_iff.1 hj).1 hx) i.1 j hj
    refine ⟨j', a, h.one hq hr h1 t dt c i hj ?_⟩
    have e : c i ((t, M), dt) = ∏ k ∈ Finset.range i.1, (1 + gap u k * alignment u.kind (memberMag u u.topId k) (memberMag u u.topId (k + 1)) (polariserAt u k)) := by
      rw [hc]
      unfold factor stackFactor currentFactor
      rw [if_pos hd]
      refine Finset.prod_congr rfl fun k hk => ?_
      have hk : k < i.1 := by simpa using hk
      have hi := i.2
      rw [gap_frame h.frame, hkind, htop, h.mag (by omega) (free k (by omega)), h.mag (by omega) (free (k + 1) (by omega))]
      congr 3
      unfold polariserAt
      beta_reduce
      by_cases h2 : TwoLayers s
      · rw [if_pos h2, if_pos ((twoLayers_rigid h.rigid).2 h2), hbot, h.mag (by omega) (fixed h2 k (by omega))]
      · rw [if_neg h2, if_neg (fun x => h2 ((twoLayers_rigid h.rigid).1 x)), rigid_ref h.frame h.rigid]
    rw [e, ← hdrv, ← phase_frame h.frame]
    exact b
  · have hd' : s.delayed = false := by simpa using hd
    have h2' := h2 hd'
    have hrun := step_runs hs (fun k => 1 + gap u k * alignment u.kind (memberMag u' u.topId k) (memberMag u u.topId (k + 1)) (memberMag u' u.bottomId k))
      (fun fr hfr k p j x hp hj hx => by
        obtain ⟨a, b, q, ha, hb, hq, rfl⟩ := factor_direct (hdel.trans hd') hx
        rw [memberMag_of hp ha, memberMag_of hj hb, memberMag_of hp hq])
    suffices ∀ (q : Nat) (hq : q < s.junctions.length), c ⟨q, hq⟩ ((t, M), dt) = (∏ k ∈ Finset.range q,
        (1 + gap u k * alignment u.kind (memberMag u' u.topId k) (memberMag u u.topId (k + 1)) (memberMag u' u.bottomId k))) by
      intro i
      obtain ⟨j, hj⟩ := atu i
      obtain ⟨j', a, b⟩ := hrun i.1 j hj
      refine ⟨j', a, h.one hq hr h1 t dt c i hj ?_⟩
      rw [this i.1 i.2, ← hdrv, ← phase_frame h.frame]
      exact b
    intro q
    induction q with
    | zero =>
      intro h0
      rw [hc]
      unfold factor
      rw [if_neg hd]
      simp [running]
    | succ q ih =>
      intro hq1
      have hq0 : q < s.junctions.length := by omega
      have ih := ih hq0
      obtain ⟨j, hj⟩ := atu ⟨q, hq0⟩
      obtain ⟨j', a, b⟩ := hrun q j hj
      rw [← ih, hdrv, phase_frame h.frame] at b
      have car := h.one hq hr h1 t dt c ⟨q, hq0⟩ hj b
      have m1 : ∀ {id : String} {p : Nat}, FirstNamed id s.junctions[q] p →
          memberMag u' id q = nextMag s.lay q p (c ⟨q, hq0⟩ ((t, M), dt)) ((t, M), dt) := by
        intro id p hp
        obtain ⟨hk, hm⟩ := carried_mag (i := ⟨q, hq0⟩) (e := fun _ => scaled s.currentDriver (c ⟨q, hq0⟩ ((t, M), dt)) (phaseOf s q)) a car hp
        exact hm.trans (nextMag_eq (P := s.lay) (c := c) ⟨q, hq0⟩ ⟨p, hk⟩ ((t, M), dt)).symm
      rw [Finset.prod_range_succ, ← ih, gap_frame h.frame, hkind, htop, hbot, m1 (free q hq0), m1 (fixed h2' q hq0),
        h.mag (by omega) (free (q + 1) hq1)]
      have hrn : ∀ (k : Nat) (hk : k < s.junctions.length) x, c ⟨k, hk⟩ x = running s.lay s top bot k x := by
        intro k hk x
        rw [hc]
        unfold factor
        rw [if_neg hd]
      rw [hrn, hrn]
      rfl

/-- helper -/
theorem Holds.log {M : ∀ i, Fin (s.sizes i) → V} {u u' : Stack ℝ} (h : Holds s M u) {t : ℝ} {vs : List (ℝ × ℝ)}
    (hs : u.logRow t vs = .ok () u') : Holds s M u' := by
  obtain ⟨g3, g4⟩ := logRow_kept kept_rigid kept_log_rigid u t vs
  rw [hs] at g3 g4
  obtain ⟨-, -, c3, c4⟩ := logRow_ok hs
  refine ⟨h.frame.trans g3, forall₂_trans kept_rigid.trans h.rigid g4, fun i => ?_⟩
  obtain ⟨j, e, q1, q2⟩ := h.member i
  obtain ⟨j', k1, k2⟩ := c4 i.1 j q1
  refine ⟨j', e, k1, ?_⟩
  rw [log_mags k2]
  exact q2

/-- helper: the states after the steps -/
noncomputable def states (s : Stack ℝ) (top bot : Nat → Nat) (dt : ℝ) : ℕ → Y s.sizes
  | 0 => (0, fun i k => toV (s.parts i k).mag)
  | k + 1 => renormAll (states s top bot dt k + dt • wholeSlope s.lay (fun i z => factor s.lay s top bot i (z, dt)) (states s top bot dt k) dt)

/-- helper -/
theorem states_time (dt : ℝ) (k : ℕ) : (states s top bot dt k).1 = k * dt := by
  induction k with
  | zero => simp [states]
  | succ k ih =>
    show (states s top bot dt k).1 + dt * 1 = _
    rw [ih]; push_cast; ring

/-- helper: the loop -/
theorem Holds.loop (hl : Roles s top bot) (h2 : s.delayed = false → TwoLayers s) (hq : ∀ i k, Quiet (s.parts i k)) {r : Runner}
    (hr : r = .single ∨ r = .multi) (h1 : r = .single → ∀ i, s.sizes i = 1) {two : Bool} (ht : s.isTwoLayerMemberStack = .ok two) (dt : ℝ)
    (we n i : Nat) {u u' : Stack ℝ} (h : Holds s (states s top bot dt i).2 u) (hs : Stack.loop r two dt we i n u = .ok () u') :
    Holds s (states s top bot dt (i + n)).2 u' := by
  induction n generalizing i u with
  | zero =>
    simp only [Stack.loop, Out.ok, Out.mk.injEq, true_and] at hs
    exact hs ▸ h
  | succ n ih =>
    unfold Stack.loop at hs
    dsimp only at hs
    obtain ⟨v, m, e1, e2⟩ := Out.bind_eq_ok hs
    have et : (Scalar.lit (i : ℚ) * dt : ℝ) = (states s top bot dt i).1 := by rw [states_time]; simp
    have hm := h.step hl h2 hq hr h1 (by rw [twoLayer_rigid h.rigid]; exact ht) e1
    rw [et] at hm
    rw [show i + (n + 1) = i + 1 + n by omega]
    split at e2
    · simp [Out.ok, Out.fail] at e2
    · split at e2
      · obtain ⟨w, m', f1, f2⟩ := Out.bind_eq_ok e2
        exact ih (i + 1) (hm.log f1) f2
      · exact ih (i + 1) hm e2

/-! ### Convergence -/

/-- helper: the curves as one curve -/
noncomputable def curve (s : Stack ℝ) (m : Nat → Nat → ℝ → CVec ℝ) (t : ℝ) : Y s.sizes := (t, fun i k => toV (m i.1 k.1 t))

/-- helper -/
theorem first_lt {id : String} {j : Junction ℝ} {p : Nat} (h : FirstNamed id j p) : p < j.layers.length := by
  obtain ⟨l, h1, -⟩ := h
  exact (List.getElem?_eq_some_iff.1 h1).1

/-- helper -/
theorem stackFactor_congr (hl : Roles s top bot) {f g : Nat → Nat → CVec ℝ}
    (h : ∀ (i : Fin s.junctions.length) (k : Fin (s.sizes i)), f i.1 k.1 = g i.1 k.1) (i : Fin s.junctions.length) :
    stackFactor s top bot f i.1 = stackFactor s top bot g i.1 := by
  unfold stackFactor currentFactor
  have free : ∀ k, k < s.junctions.length → f k (top k) = g k (top k) := fun k hk =>
    h ⟨k, hk⟩ ⟨top k, first_lt (hl.free k _ (List.getElem?_eq_getElem hk))⟩
  refine Finset.prod_congr rfl fun k hk => ?_
  have hk : k < i.1 := by simpa using hk
  have hi := i.2
  beta_reduce
  rw [free k (by omega), free (k + 1) (by omega)]
  congr 3
  by_cases h2 : TwoLayers s
  · rw [if_pos h2, if_pos h2]
    exact h ⟨k, by omega⟩ ⟨bot k, first_lt (hl.fixed h2 k _ (List.getElem?_eq_getElem (by omega)))⟩
  · rw [if_neg h2, if_neg h2]

/-- helper -/
theorem factor_curve (hl : Roles s top bot) (m : Nat → Nat → ℝ → CVec ℝ) (t : ℝ) (i : Fin s.junctions.length) :
    stackFactor s top bot (magAt (curve s m t).2) i.1 = stackFactor s top bot (fun i k => m i k t) i.1 :=
  stackFactor_congr (f := magAt (curve s m t).2) (g := fun i k => m i k t) hl (fun i k => (magAt_eq (curve s m t).2 i k).trans (ofV_toV _)) i

/-- helper -/
theorem start_holds (s : Stack ℝ) : Holds s (fun i k => toV (s.parts i k).mag) s :=
  ⟨.refl s, forall₂_refl kept_rigid.refl _, fun i => ⟨s.junctions[i], fun k => (s.parts i k).currentDriver, List.getElem?_eq_getElem i.2,
    carries_self s.junctions[i].layers⟩⟩

/-- helper -/
theorem scaled_smooth {d : ScalarDriver ℝ} (h : SmoothKind d) (w ph t : ℝ) : ContDiffAt ℝ 4 (scaled d w ph).value t :=
  smooth_value (d := scaled d w ph) h t

/-- helper -/
theorem lay_smooth {z : Y s.sizes} (hk : SmoothKind s.currentDriver) (i : Fin s.junctions.length)
    (hs : ∀ k, Smooth (driven s.currentDriver (s.parts i k)) z.1)
    (hn : ∀ k, NoPole (s.parts i k) (ofV (z.2 i k)) (low (z.2 i) k) (up (z.2 i) k)) (w : ℝ) :
    ContDiffAt ℝ 4 (lifted (s.lay i)) (Order.sub i z, w) :=
  driven_smooth hk (phaseOf s i.1) (s.parts i) (Order.sub i z, w) (fun x => scaled_smooth hk x _ _) hs hn

/-- helper -/
theorem track_length {m : Nat → Nat → ℝ → CVec ℝ} {T : ℝ} (h : StackTrack s top bot m T) : ∃ lo hi : ℝ, lo < 0 ∧ T < hi ∧
    (∀ (i : Fin s.junctions.length) (k : Fin (s.sizes i)), ∀ t ∈ Set.Ioo lo hi,
      Slope (m i.1 k.1) (motion (s.lay i (stackFactor s top bot (fun i k => m i k t) i.1) k) t (m i.1 k.1 t)
        (lower (m i.1) k.1 t) (upper (s.sizes i) (m i.1) k.1 t)) t) ∧
    ∀ (i : Fin s.junctions.length) (k : Fin (s.sizes i)), ∀ t ∈ Set.Ioo lo hi, (0 : ℝ) ∈ Set.Ioo lo hi → (m i.1 k.1 t).length = 1 := by
  obtain ⟨lo, hi, hlo, hhi, hm⟩ := h.solves
  have hm' : ∀ (i : Fin s.junctions.length) (k : Fin (s.sizes i)), ∀ t ∈ Set.Ioo lo hi,
      Slope (m i.1 k.1) (motion (s.lay i (stackFactor s top bot (fun i k => m i k t) i.1) k) t (m i.1 k.1 t)
        (lower (m i.1) k.1 t) (upper (s.sizes i) (m i.1) k.1 t)) t := fun i k t ht =>
    hm i.1 k.1 s.junctions[i] (s.parts i k) (List.getElem?_eq_getElem i.2) (List.getElem?_eq_getElem k.2) t ht
  refine ⟨lo, hi, hlo, hhi, hm', fun i k t ht h0 => ?_⟩
  rw [length_steady (l := fun t => s.lay i (stackFactor s top bot (fun i k => m i k t) i.1) k) (c := m i.1 k.1) (b := lower (m i.1) k.1)
    (a := upper (s.sizes i) (m i.1) k.1) h0 (hm' i k) t ht, h.start _ _ _ (layer_of i k)]
  exact h.unit _ _ _ (layer_of i k)

/-- helper -/
theorem track_quiet {m : Nat → Nat → ℝ → CVec ℝ} {T : ℝ} (h : StackTrack s top bot m T) (i : Fin s.junctions.length) (k : Fin (s.sizes i)) :
    Quiet (s.parts i k) := by
  have := (quiet_iff (s.parts i k)).1 (h.quiet _ _ _ (layer_of i k))
  refine ⟨?_, this.1, by simpa using this.2⟩
  have := h.volume _ _ _ (layer_of i k)
  unfold Layer.Guard
  simpa using this

/-- helper: the states after the steps stay near the solution -/
theorem track_states {m : Nat → Nat → ℝ → CVec ℝ} {T : ℝ} (hT : 0 ≤ T) (h : StackTrack s top bot m T) (h2 : s.delayed = false → TwoLayers s) :
    ∃ C q : ℝ, 0 < q ∧ ∀ (n : ℕ) (dt : ℝ), 0 ≤ dt → dt ≤ q → n * dt ≤ T →
      ‖states s top bot dt n - curve s m (n * dt)‖ ≤ C * dt := by
  obtain ⟨lo, hi, hlo, hhi, hm, hu⟩ := track_length h
  have in_ : ∀ t ∈ Set.Icc 0 T, t ∈ Set.Ioo lo hi := fun t ht => ⟨by linarith [ht.1], by linarith [ht.2]⟩
  have h0in : (0 : ℝ) ∈ Set.Ioo lo hi := in_ 0 ⟨le_rfl, hT⟩
  have hU' : ∀ t ∈ Set.Ioo lo hi, curve s m t ∈ UnitAll s.sizes := by
    intro t ht i k
    show ‖toV (m i.1 k.1 t)‖ = 1
    rw [norm_toV]
    exact hu i k t ht h0in
  have hd : ∀ t ∈ Set.Ioo lo hi, HasDerivAt (curve s m)
      (wholeSlope s.lay (fun i z => factor s.lay s top bot i (z, 0)) (curve s m t) 0) t := by
    intro t ht
    rw [increment_zero (P := s.lay) (c := factor s.lay s top bot)]
    refine HasDerivAt.prodMk (hasDerivAt_id t) (hasDerivAt_pi.2 fun i => hasDerivAt_pi.2 fun k => ?_)
    refine (slope_toV (hm i k t ht)).congr_deriv ?_
    show toV _ = toV (motion (s.lay i (factor s.lay s top bot i (curve s m t, 0)) k) t (ofV (toV (m i.1 k.1 t)))
      (low (joint (s.sizes i) (m i.1) t).2 k) (up (joint (s.sizes i) (m i.1) t).2 k))
    rw [factor_at (hU' t ht) h2, factor_curve h.roles, low_joint, up_joint, ofV_toV]
  have hP : ∀ t ∈ Set.Icc 0 T, ∀ i w, ContDiffAt ℝ 4 (lifted (s.lay i)) (Order.sub i (curve s m t), w) := by
    intro t ht i w
    refine lay_smooth h.driver i (fun k => h.smooth _ _ _ (layer_of i k) t ht) (fun k => ?_) w
    show NoPole (s.parts i k) (ofV (toV (m i.1 k.1 t))) (low (joint (s.sizes i) (m i.1) t).2 k) (up (joint (s.sizes i) (m i.1) t).2 k)
    rw [low_joint, up_joint, ofV_toV]
    exact h.noPole i.1 k.1 _ _ (List.getElem?_eq_getElem i.2) (List.getElem?_eq_getElem k.2) t ht
  obtain ⟨C, q, hq, hC⟩ := onestep (S := fun z dt => wholeSlope s.lay (fun i z => factor s.lay s top bot i (z, dt)) z dt) (y := curve s m)
    hlo hhi hT hd (fun t ht => increment_smooth (fun i => factors_smooth (hU' t (in_ t ht)) (hP t ht) i) (fun i => hP t ht i _))
    (fun t ht => hU' t (in_ t ht)) (fun z hz u hu w hw => renormAll_spec z hz u hu w hw)
  refine ⟨C, q, hq, fun n dt h0 hdt hn => hC n dt h0 hdt hn (states s top bot dt) ?_ (fun _ _ => rfl)⟩
  refine Prod.ext rfl (funext fun i => funext fun k => ?_)
  show toV (s.parts i k).mag = toV (m i.1 k.1 0)
  rw [h.start _ _ _ (layer_of i k)]

/-- helper -/
theorem track_near {m : Nat → Nat → ℝ → CVec ℝ} {T : ℝ} (hT : 0 ≤ T) (h : StackTrack s top bot m T) (h2 : s.delayed = false → TwoLayers s) :
    ∃ C q : ℝ, 0 < q ∧ ∀ (n : ℕ) (dt : ℝ), 0 ≤ dt → dt ≤ q → n * dt ≤ T → ∀ u, Holds s (states s top bot dt n).2 u →
      StackNear u m (n * dt) (C * dt) := by
  obtain ⟨C, q, hq, hC⟩ := track_states hT h h2
  refine ⟨C, q, hq, fun n dt h0 hdt hn u hs => ?_⟩
  have key := hC n dt h0 hdt hn
  intro i k l hl
  unfold stackLayer at hl
  have hi : i < s.junctions.length := by
    rw [hs.rigid.length_eq]
    by_contra hx
    rw [List.getElem?_eq_none (by omega)] at hl
    cases hl
  obtain ⟨j, e, e1, e3⟩ := hs.member ⟨i, hi⟩
  rw [show u.junctions[i]? = some j from e1, Option.bind_some] at hl
  obtain ⟨hk, d, rfl⟩ := e3.get hl
  set z := states s top bot dt n with hz
  show (ofV (z.2 ⟨i, hi⟩ ⟨k, hk⟩) - m i k (n * dt)).length ≤ _
  rw [← norm_toV, toV_sub, toV_ofV]
  refine le_trans ?_ key
  exact ((norm_le_pi_norm (z.2 ⟨i, hi⟩ - (curve s m (n * dt)).2 ⟨i, hi⟩) ⟨k, hk⟩).trans
    (norm_le_pi_norm (z.2 - (curve s m (n * dt)).2) ⟨i, hi⟩)).trans (norm_snd_le (z - curve s m (n * dt)))

/-- helper -/
theorem track_calm {m : Nat → Nat → ℝ → CVec ℝ} {T : ℝ} (h : StackTrack s top bot m T) : ∀ j ∈ s.junctions, Calm j := by
  intro j hj l hl
  obtain ⟨i, hi⟩ := List.getElem?_of_mem hj
  obtain ⟨k, hk⟩ := List.getElem?_of_mem hl
  have e : stackLayer s i k = some l := by unfold stackLayer; rw [hi, Option.bind_some, hk]
  exact ⟨by simpa [Layer.Guard] using h.volume i k l e, h.quiet i k l e⟩

/-- C135. Runs of a stack converge to the solution of the coupled equations of motion in which the current of every member follows, at
every instant, from the magnetisations of the members before it, with and without delay. (With delay the factors come from the state
before the step, without delay from members already stepped; both differences vanish with the time step.) The members all have one layer,
or the last one has two; the other stacks do not even advance all layers (`C37_mixed_refuted`). -/
theorem C135_converges (s : Stack ℝ) (top bot : Nat → Nat) (m : Nat → Nat → ℝ → CVec ℝ) (T : ℝ) (h : StackTrack s top bot m T)
    (h2 : s.delayed = false → TwoLayers s)
    (hk : ∀ j, s.junctions.getLast? = some j → j.layers.length = 1 → ∀ j' ∈ s.junctions, j'.layers.length = 1) :
    StackConverges s m T 1 := by
  suffices ∃ C r : ℝ, 0 < r ∧ ∀ (n : Nat) (dt : ℝ), 0 < dt → dt ≤ r → n * dt ≤ T → ∀ (we : Nat) (s' : Stack ℝ),
      StackLoopEnds s n dt we s' → StackNear s' m (n * dt) (C * dt ^ 1) by
    obtain ⟨C, r, hr, hn⟩ := this
    refine ⟨C, r, hr, hn, fun dt total wf hdt hdr h0 hle g' hg => ?_⟩
    obtain ⟨we, N, rms, js, two, rr, mm, -, hN, -, hs, -, hlast, htwo, hloop⟩ := run_inv hg
    have hNf : N = ⌊total / dt⌋₊ := by
      by_cases hb : total / dt < 2 ^ 31
      · rw [cast_floor (div_nonneg h0 hdt.le) hb] at hN
        exact (Option.some.inj hN).symm
      · exfalso
        unfold castUnsigned at hN
        have : (Scalar.toInt (total / dt) : Option Int) = none := if_neg fun q => hb (by norm_num; exact q.2)
        rw [this] at hN; cases hN
    rw [← hNf]
    refine hn N dt hdt hdr ?_ we g' ⟨rms, js, (rr, mm), two, hs, hlast, htwo, hloop⟩
    have := Nat.floor_le (div_nonneg h0 hdt.le)
    rw [le_div_iff₀ hdt] at this
    rw [hNf]
    linarith
  by_cases hT : 0 ≤ T
  swap
  · exact ⟨0, 1, one_pos, fun n dt hdt _ hn => absurd (le_trans (by positivity) hn) hT⟩
  obtain ⟨C, q, hq, hC⟩ := track_near hT h h2
  refine ⟨C, q, hq, ?_⟩
  rintro n dt hdt hdr hn we s' ⟨rms, js, rm, two, hs, hlast, htwo, hloop⟩
  rw [solvers_completes _ _ (track_calm h)] at hs
  simp only [Out.ok, Out.mk.injEq, Except.ok.injEq] at hs
  obtain ⟨rfl, rfl⟩ := hs
  rw [List.getLast?_map] at hlast
  obtain ⟨j, hj, rfl⟩ := Option.map_eq_some_iff.1 hlast
  rw [pow_one]
  refine hC n dt hdt.le hdr hn s' ?_
  have := Holds.loop h.roles h2 (track_quiet h) (r := pickRunner j.layers.length .RK4) ?_ ?_ htwo dt we n 0 (u := s) (u' := s')
    (start_holds s) hloop
  · simpa using this
  · by_cases h1 : j.layers.length = 1
    · left; rw [h1]; rfl
    · right; unfold pickRunner; simp [h1]
  · intro e i
    exact hk j hj (pickRunner_single e) _ (List.getElem_mem i.2)

/-- C135. The loop of a stack reached by calls ends, whatever the number of steps, so that the bound speaks of actual states. -/
theorem C135_ends (s : Stack ℝ) (top bot : Nat → Nat) (m : Nat → Nat → ℝ → CVec ℝ) (T : ℝ) (h : StackTrack s top bot m T)
    (hr : StackReachable s) (href : ¬ TwoLayers s → ∃ p : CVec ℝ, p ≠ ⟨0, 0, 0⟩ ∧ ∀ k < s.junctions.length, memberRef s s.topId k = p)
    (hf : s.currentDriver.update = .sine → s.currentDriver.frequency ≠ -1) (n : Nat) (dt : ℝ) (we : Nat) (hw : we ≠ 0) :
    ∃ s', StackLoopEnds s n dt we s' := by
  have named : ∀ {id : String} {j : Junction ℝ} {p : Nat}, FirstNamed id j p → ∃ l, layerNamed id j = some l := by
    rintro id j p ⟨l, h1, h2, h3⟩
    exact ⟨l, GroupInteraction.named_first h1 h2 h3⟩
  have hcalm := track_calm h
  obtain ⟨two, htwo, hready⟩ := ready_of s hr (fun j hj l hl => by
      obtain ⟨h1, h2⟩ := hcalm j hj l hl
      exact ⟨by simpa [Layer.Guard] using h1, h2⟩)
    (fun j hj => by obtain ⟨i, hi⟩ := List.getElem?_of_mem hj; exact named (h.roles.free i j hi))
    (fun h2 j hj => by obtain ⟨i, hi⟩ := List.getElem?_of_mem hj; exact named (h.roles.fixed h2 i j hi)) href
    (fun hp => by rcases h.driver with h | h | h | h <;> rw [h] at hp <;> cases hp) hf
  have hne : s.junctions ≠ [] := by intro h0; have := (reachable_valid hr).two; rw [h0] at this; simp at this
  obtain ⟨x, hx⟩ : ∃ x, (s.junctions.map fun j => (pickRunner j.layers.length .RK4, SolverMode.RK4)).getLast? = some x :=
    ⟨_, List.getLast?_eq_some_getLast (by simpa using hne)⟩
  obtain ⟨s', hs⟩ := loop_completes x.1 two dt we hw n 0 s hready
  exact ⟨s', _, _, x, two, solvers_completes _ _ hcalm, hx, htwo, hs⟩

/-- C135. The coupled equations have a solution for any duration. -/
theorem C135_exists (s : Stack ℝ) (top bot : Nat → Nat) (T : ℝ) (hT : 0 ≤ T) (hl : Roles s top bot) (hd : SmoothKind s.currentDriver)
    (hu : ∀ j ∈ s.junctions, ∀ l ∈ j.layers, l.mag.length = 1)
    (hv : ∀ j ∈ s.junctions, ∀ l ∈ j.layers, l.Ms * l.thickness ≠ 0) (hq : ∀ j ∈ s.junctions, ∀ l ∈ j.layers, ¬ Noisy l)
    (hs : ∀ j ∈ s.junctions, ∀ l ∈ j.layers, SmoothDrivers l) (hp : ∀ j ∈ s.junctions, ∀ l ∈ j.layers, Poleless l) :
    ∃ m, StackTrack s top bot m T := by
  have at_ : ∀ {i k : Nat} {l : Layer ℝ}, stackLayer s i k = some l → ∃ j ∈ s.junctions, l ∈ j.layers := by
    intro i k l h
    obtain ⟨j, hj, hl⟩ := Option.bind_eq_some_iff.1 h
    exact ⟨j, List.mem_of_getElem? hj, List.mem_of_getElem? hl⟩
  have mem : ∀ (i : Fin s.junctions.length) (k : Fin (s.sizes i)), ∃ j ∈ s.junctions, s.parts i k ∈ j.layers := fun i k => at_ (layer_of i k)
  have smooth : ∀ (l : Layer ℝ), SmoothDrivers l → ∀ t, Smooth (driven s.currentDriver l) t := fun l hl t =>
    smooth_driven (d' := l.currentDriver) (C111_drivers l hl t) (smooth_value hd t)
  have hsm : ∀ i k t, Smooth (driven s.currentDriver (s.parts i k)) t := fun i k t => by
    obtain ⟨j, h1, h2⟩ := mem i k; exact smooth _ (hs j h1 _ h2) t
  have hpo : ∀ i k, Poleless (s.parts i k) := fun i k => by obtain ⟨j, h1, h2⟩ := mem i k; exact hp j h1 _ h2
  set c : Fin s.junctions.length → Y s.sizes → ℝ := fun i z => stackFactor s top bot (magAt z.2) i.1 with hc
  obtain ⟨α, hα0, hα⟩ := clipEach_solution (whole s.lay c) T hT (fun z hz => by
    refine whole_smooth (fun i => factor_smooth s top bot (fun k p => ?_) i.1) fun i => lay_smooth hd i (fun k => hsm i k _) (fun k => ?_) _
    · unfold magAt
      split
      · exact CD.ofV ((contDiffAt_pi.1 ((contDiffAt_pi.1 contDiffAt_snd) _)) _)
      · exact CD.const _
    have hb := each_ball hz.2 i
    refine hpo i k _ _ _ ?_ (low_le hb k) (up_le hb k)
    rw [mem_closedBall_zero_iff, pi_norm_le_iff_of_nonneg zero_le_one] at hb
    rw [← norm_toV, toV_ofV]; exact hb k) (fun i k => toV (s.parts i k).mag)
  have h0 : (0 : ℝ) ∈ Set.Ioo (-1) (T + 1) := ⟨by norm_num, by linarith⟩
  have hunit := clipEach_unit h0 hα (fun i k => by
    rw [hα0, norm_toV]; obtain ⟨j, h1, h2⟩ := mem i k; exact hu j h1 _ h2)
  let m : Nat → Nat → ℝ → CVec ℝ := fun i k t => magAt (α t) i k
  have hm : ∀ (i : Fin s.junctions.length) (k : Fin (s.sizes i)) t, m i.1 k.1 t = ofV (α t i k) := fun i k t => magAt_eq (α t) i k
  have hcv : ∀ t, curve s m t = (t, α t) := by
    intro t
    refine Prod.ext rfl (funext fun i => funext fun k => ?_)
    show toV (m i.1 k.1 t) = _
    rw [hm, toV_ofV]
  have hlow : ∀ (i : Fin s.junctions.length) (k : Fin (s.sizes i)) t, lower (m i.1) k.1 t = low (α t i) k := by
    intro i k t
    rw [← low_joint]
    congr 1
    exact congrFun (congrArg Prod.snd (hcv t)) i
  have hup : ∀ (i : Fin s.junctions.length) (k : Fin (s.sizes i)) t, upper (s.sizes i) (m i.1) k.1 t = up (α t i) k := by
    intro i k t
    rw [← up_joint]
    congr 1
    exact congrFun (congrArg Prod.snd (hcv t)) i
  have hball : ∀ t ∈ Set.Ioo (-1) (T + 1), ∀ i, α t i ∈ Metric.closedBall (0 : Fin (s.sizes i) → V) 1 := by
    intro t ht i
    rw [mem_closedBall_zero_iff, pi_norm_le_iff_of_nonneg zero_le_one]
    exact fun k => (hunit t ht i k).le
  have fin_ : ∀ {i k : Nat} {j : Junction ℝ} {l : Layer ℝ}, s.junctions[i]? = some j → j.layers[k]? = some l →
      ∃ (hi : i < s.junctions.length) (hk : k < s.sizes ⟨i, hi⟩), j = s.junctions[i] ∧ l = s.parts ⟨i, hi⟩ ⟨k, hk⟩ := by
    intro i k j l h1 h2
    obtain ⟨hi, rfl⟩ := List.getElem?_eq_some_iff.1 h1
    obtain ⟨hk, rfl⟩ := List.getElem?_eq_some_iff.1 h2
    exact ⟨hi, hk, rfl, rfl⟩
  refine ⟨m, ⟨hl, hd, ⟨-1, T + 1, by norm_num, by linarith, ?_⟩, ?_, fun i k l h => ?_, fun i k l h => ?_, fun i k l h => ?_,
    fun i k l h t _ => ?_, ?_⟩⟩
  · intro i k j l h1 h2 t ht
    obtain ⟨hi, hk, rfl, rfl⟩ := fin_ h1 h2
    have d1 := of_toV (hasDerivAt_pi.1 (hasDerivAt_pi.1 (hα t ht) ⟨i, hi⟩) ⟨k, hk⟩)
    have hcl : clipEach (α t) = α t := funext fun i => funext fun k => clip_self (hunit t ht i k).le
    have e1 : ofV ((whole s.lay c (t, clipEach (α t))).2 ⟨i, hi⟩ ⟨k, hk⟩) =
        motion (driven (scaled s.currentDriver (stackFactor s top bot (fun i k => m i k t) i) (phaseOf s i)) (s.parts ⟨i, hi⟩ ⟨k, hk⟩)) t
          (m i k t) (lower (m i) k t) (upper s.junctions[i].layers.length (m i) k t) := by
      have hup' : upper s.junctions[i].layers.length (m i) k t = up (α t ⟨i, hi⟩) ⟨k, hk⟩ := hup ⟨i, hi⟩ ⟨k, hk⟩ t
      rw [hm ⟨i, hi⟩ ⟨k, hk⟩, hlow ⟨i, hi⟩ ⟨k, hk⟩, hup', hcl]
      rfl
    rw [e1] at d1
    have e2 : m i k = fun s => ofV (α s ⟨i, hi⟩ ⟨k, hk⟩) := funext fun s => hm ⟨i, hi⟩ ⟨k, hk⟩ s
    rw [show Slope (m i k) = Slope (fun s => ofV (α s ⟨i, hi⟩ ⟨k, hk⟩)) by rw [e2]]
    exact d1
  · intro i k l h
    obtain ⟨j, h1, h2⟩ := Option.bind_eq_some_iff.1 h
    obtain ⟨hi, hk, rfl, rfl⟩ := fin_ h1 h2
    rw [hm ⟨i, hi⟩ ⟨k, hk⟩, hα0, ofV_toV]
  · obtain ⟨j, h1, h2⟩ := at_ h; exact hu j h1 l h2
  · obtain ⟨j, h1, h2⟩ := at_ h; exact hv j h1 l h2
  · obtain ⟨j, h1, h2⟩ := at_ h; exact hq j h1 l h2
  · obtain ⟨j, h1, h2⟩ := at_ h; exact smooth l (hs j h1 l h2) t
  · intro i k j l h1 h2 t ht
    obtain ⟨hi, hk, rfl, rfl⟩ := fin_ h1 h2
    have ht' : t ∈ Set.Ioo (-1) (T + 1) := ⟨by linarith [ht.1], by linarith [ht.2]⟩
    have hup' : upper s.junctions[i].layers.length (m i) k t = up (α t ⟨i, hi⟩) ⟨k, hk⟩ := hup ⟨i, hi⟩ ⟨k, hk⟩ t
    rw [hm ⟨i, hi⟩ ⟨k, hk⟩, hlow ⟨i, hi⟩ ⟨k, hk⟩, hup']
    refine hpo ⟨i, hi⟩ ⟨k, hk⟩ _ _ _ ?_ (low_le (hball t ht' _) _) (up_le (hball t ht' _) _)
    rw [← norm_toV, toV_ofV, hunit t ht']

/-- C135. The solution is unique. -/
theorem C135_unique (s : Stack ℝ) (top bot : Nat → Nat) (m m' : Nat → Nat → ℝ → CVec ℝ) (T : ℝ) (h : StackTrack s top bot m T)
    (h' : StackTrack s top bot m' T) (i k : Nat) (l : Layer ℝ) (hl : stackLayer s i k = some l) (t : ℝ) (ht : t ∈ Set.Icc 0 T) :
    m i k t = m' i k t := by
  have hT : 0 ≤ T := ht.1.trans ht.2
  have conv : ∀ {m}, StackTrack s top bot m T → StackTrack { s with delayed := true } top bot m T := fun h =>
    ⟨⟨h.roles.free, h.roles.fixed⟩, h.driver, h.solves, h.start, h.unit, h.volume, h.quiet, h.smooth, h.noPole⟩
  obtain ⟨C, q, hq, hC⟩ := track_states hT (conv h) (fun h => by cases h)
  obtain ⟨C', q', hq', hC'⟩ := track_states hT (conv h') (fun h => by cases h)
  have e := congrArg Prod.snd (limits_agree (z := fun dt n => states _ top bot dt n) hq hq' hC hC' ht.1 ht.2)
  obtain ⟨j, h1, h2⟩ := Option.bind_eq_some_iff.1 hl
  obtain ⟨hi, rfl⟩ := List.getElem?_eq_some_iff.1 h1
  have hk := (List.getElem?_eq_some_iff.1 h2).1
  have := congrFun (congrFun e ⟨i, hi⟩) ⟨k, hk⟩
  rw [← ofV_toV (m i k t), ← ofV_toV (m' i k t)]
  exact congrArg ofV this

/-- C135. Delayed and direct coupling describe the same motion: after the same number of steps the two states differ by at most a
constant times the time step. -/
theorem C135_delay (s : Stack ℝ) (top bot : Nat → Nat) (m : Nat → Nat → ℝ → CVec ℝ) (T : ℝ) (h : StackTrack s top bot m T)
    (h2 : TwoLayers s) : ∃ C r : ℝ, 0 < r ∧ ∀ (n : Nat) (dt : ℝ), 0 < dt → dt ≤ r → n * dt ≤ T → ∀ (we : Nat) (a b : Stack ℝ),
      StackLoopEnds { s with delayed := true } n dt we a → StackLoopEnds { s with delayed := false } n dt we b →
      ∀ (i k : Nat) (l l' : Layer ℝ), stackLayer a i k = some l → stackLayer b i k = some l' → (l.mag - l'.mag).length ≤ C * dt := by
  have conv : ∀ d, StackTrack { s with delayed := d } top bot m T := fun d =>
    ⟨⟨h.roles.free, h.roles.fixed⟩, h.driver, h.solves, h.start, h.unit, h.volume, h.quiet, h.smooth, h.noPole⟩
  have two : ∀ j, s.junctions.getLast? = some j → j.layers.length = 1 → ∀ j' ∈ s.junctions, j'.layers.length = 1 := fun j hj h1 => by
    have := h2 j (List.mem_of_getLast? hj)
    omega
  obtain ⟨C, q, hq, hC, -⟩ := C135_converges _ top bot m T (conv true) (fun h => by cases h) two
  obtain ⟨C', q', hq', hC', -⟩ := C135_converges _ top bot m T (conv false) (fun _ => h2) two
  refine ⟨C + C', min q q', lt_min hq hq', fun n dt h0 hdt hn we a b ha hb i k l l' hl hl' => ?_⟩
  have e1 := hC n dt h0 (hdt.trans (min_le_left _ _)) hn we a ha i k l hl
  have e2 := hC' n dt h0 (hdt.trans (min_le_right _ _)) hn we b hb i k l' hl'
  rw [← norm_toV, toV_sub, pow_one] at e1 e2
  rw [← norm_toV, toV_sub]
  calc ‖toV l.mag - toV l'.mag‖ = ‖(toV l.mag - toV (m i k (n * dt))) - (toV l'.mag - toV (m i k (n * dt)))‖ := by congr 1; abel
    _ ≤ _ := norm_sub_le _ _
    _ ≤ (C + C') * dt := by linarith

/-! ### A case -/

/-- two unit layers with spin transfer -/
noncomputable def torqueJ : Junction ℝ :=
  { demoJ with layers := [Layer.demo, { Layer.demo with id := "bottom", mag := ⟨1, 0, 0⟩ }], Rp := 1, Rap := 2, mrMode := .CLASSIC,
               Rtag := "R_free_bottom" }

/-- helper -/
theorem torqueJ_reachable : Reachable torqueJ := by
  refine ⟨torqueJ, [], .inr (.inl ⟨[Layer.demo, { Layer.demo with id := "bottom", mag := ⟨1, 0, 0⟩ }], 1, 2, ?_⟩), rfl⟩
  unfold classic
  simp only [Junction.plain, List.length_cons, List.length_nil]
  simp [torqueJ, demoJ, Layer.demo]

/-- two such junctions, stepped one after the other under a current coupled between them -/
noncomputable def torqueS (kind : StackKind) (delay : Bool) : Stack ℝ :=
  { stackOf kind [torqueJ.carry (.constantDriver 3), torqueJ.carry (.constantDriver 3)] with
    couplingStrength := [1 / 2], currentDriver := .constantDriver 3, delayed := delay }

/-- helper -/
theorem torqueS_reachable (kind : StackKind) (delay : Bool) : StackReachable (torqueS kind delay) := by
  refine ⟨kind, [torqueJ, torqueJ], "free", "bottom", 0, stackOf kind [torqueJ, torqueJ],
    [.coupling (1 / 2), .current (.constantDriver 3), .delayed delay], ?_, ?_, ?_⟩
  · intro j hj
    have : j = torqueJ := by simpa using hj
    rw [this]; exact torqueJ_reachable
  · unfold mk'
    simp [stackOf, torqueJ]
  · have e := setCurrent_all (.constantDriver (3 : ℝ)) torqueJ (by simp [torqueJ])
    set J := torqueJ.carry (.constantDriver 3) with hJ
    have hn : J.layerNo = 2 := rfl
    have h1 : (((stackOf kind [torqueJ, torqueJ]).setCouplingStrength (1 / 2)).setCoupledCurrentDriver (.constantDriver 3)).st =
        torqueS kind true := by
      simp [setCoupledCurrentDriver, onAll, Out.traverse, e, stackOf, torqueS, setCouplingStrength, Out.ok, ← hJ]
    show torqueS kind delay = (setDelayed (((stackOf kind [torqueJ, torqueJ]).setCouplingStrength (1 / 2)).setCoupledCurrentDriver
      (.constantDriver 3)).st delay).st
    rw [h1]
    have h2 : (torqueS kind true).isTwoLayerMemberStack = .ok true := by
      simp [isTwoLayerMemberStack, torqueS, stackOf, twoLayerLoop, ← hJ, hn]
    cases delay
    · simp only [setDelayed, h2]; rfl
    · simp only [setDelayed]; rfl

/-- The solution, its approximation by the loop, and the loop itself, in both kinds of stacks, with and without delay. -/
example (kind : StackKind) (delay : Bool) : ∃ m, StackTrack (torqueS kind delay) (fun _ => 0) (fun _ => 1) m 1 ∧
    StackConverges (torqueS kind delay) m 1 1 ∧ ∃ s', StackLoopEnds (torqueS kind delay) 10 (1 / 10) 2 s' := by
  set s := torqueS kind delay with hs
  have hj : ∀ j ∈ s.junctions, j = torqueJ.carry (.constantDriver 3) := by intro j hj; simpa [hs, torqueS, stackOf] using hj
  have h2 : TwoLayers s := by intro j h; rw [hj j h]; rfl
  have hl : Roles s (fun _ => 0) (fun _ => 1) := by
    refine ⟨fun i j h => ?_, fun _ i j h => ?_⟩
    · rw [hj j (List.mem_of_getElem? h)]
      exact ⟨_, rfl, rfl, fun q hq => absurd hq (by omega)⟩
    · rw [hj j (List.mem_of_getElem? h)]
      refine ⟨_, rfl, rfl, fun q hq l' hl' => ?_⟩
      have : q = 0 := by omega
      subst this
      have e : (Layer.demo.setCurrentDriver (.constantDriver 3)) = l' := by simpa [carry, torqueJ] using hl'
      rw [← e]
      show "free" ≠ "bottom"
      decide
  have hlay : ∀ j ∈ s.junctions, ∀ l ∈ j.layers, l = { Layer.demo with currentDriver := .constantDriver 3 } ∨
      l = { Layer.demo with id := "bottom", mag := ⟨1, 0, 0⟩, currentDriver := .constantDriver 3 } := by
    intro j h l hl
    rw [hj j h] at hl
    simpa [carry, torqueJ, Layer.setCurrentDriver] using hl
  obtain ⟨m, hm⟩ := C135_exists s _ _ 1 zero_le_one hl (.inl rfl)
    (fun j h l hh => by rcases hlay j h l hh with rfl | rfl <;> simp [Layer.demo, CVec.length_eq, CVec.normSq])
    (fun j h l hh => by rcases hlay j h l hh with rfl | rfl <;> simp [Layer.demo])
    (fun j h l hh => by rcases hlay j h l hh with rfl | rfl <;> simp [Layer.demo, Noisy])
    (fun j h l hh => by
      rcases hlay j h l hh with rfl | rfl <;> constructor <;> simp [Layer.demo, SmoothKind, SmoothAxes, ScalarDriver.null,
        ScalarDriver.constantDriver, AxialDriver.null, AxialDriver.ofVec])
    (fun j h l hh => by
      rcases hlay j h l hh with rfl | rfl <;> exact C111_poleless _ (fun _ => by simp [Layer.demo, CVec.length_eq, CVec.normSq]))
  exact ⟨m, hm, C135_converges s _ _ m 1 hm (fun _ => h2) (fun j hj' h1 => by
      rw [hj j (List.mem_of_getLast? hj')] at h1; simp [carry, torqueJ] at h1),
    C135_ends s _ _ m 1 hm (torqueS_reachable kind delay) (fun h => absurd h2 h) (fun h => by cases h) 10 _ 2 (by norm_num)⟩

end Stack
