import Verif.Props.GroupExamples
import Verif.Props.StackLogs

/-! # C68: logs of groups -/

set_option linter.unusedSectionVars false

namespace GroupInteraction
open Spec Layer Stack
open Junction hiding forall₂_refl forall₂_trans
variable {T : Type} [Scalar T]

/-! ### What a run does to the members' logs, whatever its outcome -/

/-- helper: the group's setter keeps a relation -/
def Reserves (P : Junction T → Junction T → Prop) : Prop := ∀ j id d, P j (j.setLayerReservedInteractionField id d).st

/-- helper -/
theorem reserves_logFrame : Reserves (LogFrame (T := T)) := by
  intro j id d
  have h := layerSetter_pure j id (·.setReservedInteractionField d)
  unfold Junction.setLayerReservedInteractionField
  rw [h]
  split
  · refine ⟨⟨rfl, rfl, rfl, rfl, rfl, rfl, rfl, rfl, rfl, rfl, rfl, by simp [Out.ok, mapAddressed]⟩, ?_, rfl, rfl⟩
    change (j.layers.map fun l => _).map Layer.id = _
    rw [List.map_map]
    refine List.map_congr_left fun l _ => ?_
    simp only [Function.comp]
    split <;> rfl
  · exact kept_logFrame.refl j

/-- helper: the same apart from the members -/
def SameGroup (g g' : GroupInteraction T) : Prop := g'.topId = g.topId ∧ g'.positions = g.positions ∧ g'.interaction = g.interaction

theorem SameGroup.refl (g : GroupInteraction T) : SameGroup g g := ⟨rfl, rfl, rfl⟩
theorem SameGroup.trans {a b c : GroupInteraction T} (h : SameGroup a b) (h' : SameGroup b c) : SameGroup a c :=
  ⟨h'.1.trans h.1, h'.2.1.trans h.2.1, h'.2.2.trans h.2.2⟩

variable {P : Junction T → Junction T → Prop}

/-- helper -/
theorem setFields_kept (hP : Kept P) (hr : Reserves P) (is : List Nat) (g : GroupInteraction T) :
    SameGroup g (g.setFields is).st ∧ List.Forall₂ P g.junctions (g.setFields is).st.junctions := by
  induction is generalizing g with
  | nil => exact ⟨.refl g, forall₂_refl hP.refl _⟩
  | cons i is ih =>
    unfold setFields
    split
    · exact ⟨.refl g, forall₂_refl hP.refl _⟩
    · rename_i h _
      split
      · exact ⟨.refl g, forall₂_refl hP.refl _⟩
      · rename_i j hj
        have hk := hr j g.topId (.ofVec h)
        generalize j.setLayerReservedInteractionField g.topId (.ofVec h) = x at hk
        rcases x with ⟨_ | _, j'⟩
        · exact ⟨.refl g, forall₂_set hP.refl hj hk⟩
        · obtain ⟨a, b⟩ := ih (g.withJunctions (g.junctions.set i j'))
          exact ⟨a, forall₂_trans hP.trans (forall₂_set hP.refl hj hk) b⟩

/-- helper -/
theorem step_kept (hP : Kept P) (hr : Reserves P) (g : GroupInteraction T) (r : Runner) (t dt : T) :
    SameGroup g (g.step r t dt).st ∧ List.Forall₂ P g.junctions (g.step r t dt).st.junctions := by
  unfold step
  obtain ⟨a, b⟩ := setFields_kept hP hr (List.range g.junctions.length) g
  generalize g.setFields (List.range g.junctions.length) = x at a b
  rcases x with ⟨_ | _, g1⟩
  · exact ⟨a, b⟩
  · have h := Out.traverse_keeps P hP.refl (fun _ j => j.runStep r t dt) (fun _ j => hP.step j r t dt) 0 g1.junctions
    simp only [Out.bind]
    generalize Out.traverse (fun _ j => j.runStep r t dt) 0 g1.junctions = y at h
    rcases y with ⟨_ | _, js⟩ <;> exact ⟨a, forall₂_trans hP.trans b h⟩

/-- helper -/
theorem logRow_kept (hP : Kept P) (hlog : ∀ j t, P j (j.logLayerParams t false).st) (g : GroupInteraction T) (t : T) :
    SameGroup g (g.logRow t).st ∧ List.Forall₂ P g.junctions (g.logRow t).st.junctions := by
  unfold logRow
  have h := Out.traverse_keeps P hP.refl (fun _ j => j.logLayerParams t false) (fun _ j => hlog j _) 0 g.junctions
  generalize Out.traverse (fun _ j => j.logLayerParams t false) 0 g.junctions = y at h
  rcases y with ⟨_ | _, js⟩ <;> exact ⟨.refl g, h⟩

/-- helper -/
theorem loop_kept (hP : Kept P) (hr : Reserves P) (hlog : ∀ j t, P j (j.logLayerParams t false).st) (r : Runner) (dt : T) (we n i : Nat)
    (g : GroupInteraction T) : SameGroup g (loop r dt we i n g).st ∧ List.Forall₂ P g.junctions (loop r dt we i n g).st.junctions := by
  induction n generalizing i g with
  | zero => exact ⟨.refl g, forall₂_refl hP.refl _⟩
  | succ n ih =>
    unfold loop
    dsimp only
    obtain ⟨a, b⟩ := step_kept hP hr g r (Scalar.lit (i : ℚ) * dt) dt
    generalize g.step r (Scalar.lit (i : ℚ) * dt) dt = x at a b
    rcases x with ⟨_ | _, g1⟩
    · exact ⟨a, b⟩
    · simp only [Out.bind]
      dsimp only at a b
      split
      · exact ⟨a, b⟩
      · split
        · obtain ⟨a', b'⟩ := logRow_kept hP hlog g1 (Scalar.lit (i : ℚ) * dt)
          generalize g1.logRow (Scalar.lit (i : ℚ) * dt) = y at a' b'
          rcases y with ⟨_ | _, g2⟩
          · exact ⟨a.trans a', forall₂_trans hP.trans b b'⟩
          · obtain ⟨c, d⟩ := ih (i + 1) g2
            exact ⟨(a.trans a').trans c, forall₂_trans hP.trans (forall₂_trans hP.trans b b') d⟩
        · obtain ⟨c, d⟩ := ih (i + 1) g1
          exact ⟨a.trans c, forall₂_trans hP.trans b d⟩

/-- helper -/
theorem run_kept (hP : Kept P) (hr : Reserves P) (hlog : ∀ j t, P j (j.logLayerParams t false).st) (g : GroupInteraction T)
    (total dt wf : T) : SameGroup g (g.runSimulation total dt wf).st ∧
      List.Forall₂ P g.junctions (g.runSimulation total dt wf).st.junctions := by
  unfold runSimulation
  split
  · rename_i we N _ _
    split
    · exact ⟨.refl g, forall₂_refl hP.refl _⟩
    · have h1 := solvers_kept hP N g.junctions
      generalize solvers N g.junctions = x at h1
      rcases x with ⟨_ | rms, js⟩
      · exact ⟨.refl g, h1⟩
      · dsimp only
        split
        · exact ⟨.refl g, h1⟩
        · split
          · exact ⟨.refl g, h1⟩
          · obtain ⟨g1, g2⟩ := loop_kept hP hr hlog _ dt we N 0 (g.withJunctions js)
            exact ⟨g1, forall₂_trans hP.trans h1 g2⟩
  · exact ⟨.refl g, forall₂_refl hP.refl _⟩

/-! ### C68 -/

/-- C68: no call on a group, failing or not, changes the positions, the name of the interacting layer or the number of
members. -/
theorem C68_shape (g : GroupInteraction T) (cs : List (GroupCall T)) :
    (groupProgram cs g).positions = g.positions ∧ (groupProgram cs g).topId = g.topId ∧
    (groupProgram cs g).junctions.length = g.junctions.length := by
  induction cs generalizing g with
  | nil => exact ⟨rfl, rfl, rfl⟩
  | cons c cs ih =>
    obtain ⟨a, b, d⟩ := ih (c.exec g).st
    have : (c.exec g).st.positions = g.positions ∧ (c.exec g).st.topId = g.topId ∧
        (c.exec g).st.junctions.length = g.junctions.length := by
      cases c with
      | interaction f => exact ⟨rfl, rfl, rfl⟩
      | clearLogs => exact ⟨rfl, rfl, by simp [GroupCall.exec, Out.ok, clearLogs, withJunctions]⟩
      | run x y z =>
        obtain ⟨k1, k2⟩ := run_kept (P := fun _ _ => True) ⟨fun _ => trivial, fun _ _ _ _ _ => trivial, fun _ _ => trivial,
          fun _ _ _ _ => trivial, fun _ _ _ => trivial⟩ (fun _ _ _ => trivial) (fun _ _ => trivial) g x y z
        exact ⟨k1.2.1, k1.1, k2.length_eq.symm⟩
    exact ⟨a.trans this.1, b.trans this.2.1, d.trans this.2.2⟩

/-- C68: the members' logs stay aligned (in the sense of C28) through any sequence of calls on the group, failing ones
included, for members with distinct layer ids whose own runs, if any, logged no energies. -/
theorem C68_aligned (ps : List (CVec T)) (js : List (Junction T)) (id : String) (g0 : GroupInteraction T) (cs : List (GroupCall T))
    (hj : ∀ j ∈ js, ∃ j0 ds, Constructed j0 ∧ DistinctIds j0 ∧ (∀ d ∈ ds, Call.energiesOnly false d) ∧ j = program ds j0)
    (h0 : mk' ps js id = .ok g0) : ∀ j ∈ (groupProgram cs g0).junctions, Aligned j := by
  have h1 := ((C39_accepted ps js id g0).1 h0).2.2.2
  have hstart : ∀ j ∈ g0.junctions, LogInv false j := by
    rw [h1]
    intro j hjm
    obtain ⟨j0, ds, c1, c2, c3, rfl⟩ := hj j hjm
    exact (LogInv.start c1 c2 (by simp)).program ds c3 (by simp)
  clear h0 h1
  have : ∀ j ∈ (groupProgram cs g0).junctions, LogInv false j := by
    induction cs generalizing g0 with
    | nil => exact hstart
    | cons c cs ih =>
      refine ih _ ?_
      cases c with
      | interaction f => exact hstart
      | clearLogs =>
        intro j hj
        simp only [GroupCall.exec, Out.ok, clearLogs, withJunctions, List.mem_map] at hj
        obtain ⟨x, hx, rfl⟩ := hj
        have := hstart x hx
        exact ⟨this.mr, this.tag, this.ids, by simp, ⟨by simp [Junction.clearLog, Log.keys], by simp [Junction.clearLog]⟩,
          fun key => by
            change 0 = if _ then 0 else 0
            split <;> rfl⟩
      | run x y z =>
        have hk := (run_kept kept_logInv (fun j id d h => logInv_frame h (reserves_logFrame j id d))
          (fun _ t hj => logInv_log hj t) g0 x y z).2
        exact forall_of_forall₂ (fun _ _ hab ha => hab ha) hk hstart
  exact fun j hj => (this j hj).aligned.1

/-- C68: clearing empties the log of every member and leaves the members otherwise as they are. -/
theorem C68_clear (g : GroupInteraction T) :
    g.clearLogs.positions = g.positions ∧ g.clearLogs.topId = g.topId ∧ g.clearLogs.interaction = g.interaction ∧
    g.clearLogs.junctions.length = g.junctions.length ∧
    ∀ (q : Nat) (j : Junction T), g.junctions[q]? = some j → ∃ j', g.clearLogs.junctions[q]? = some j' ∧
      j'.log = [] ∧ j'.logLength = 0 ∧ j'.layers = j.layers ∧ SameParams j j' := by
  refine ⟨rfl, rfl, rfl, by simp [clearLogs, withJunctions], fun q j hj => ⟨j.clearLog, ?_, rfl, rfl, rfl, .refl j⟩⟩
  simp only [clearLogs, withJunctions, List.getElem?_map, hj, Option.map_some]

/-- C68: the log handed out for a number is the log of the member with this number; a number without member is an
exception. -/
theorem C68_getLog (g : GroupInteraction T) (q : Nat) :
    (∀ j, g.junctions[q]? = some j → g.getLog q = .ok j.log) ∧ (g.junctions.length ≤ q → g.getLog q = .error .badIndex) := by
  unfold getLog
  refine ⟨fun j hj => by rw [hj], fun h => by rw [List.getElem?_eq_none h]⟩

/-- helper -/
theorem loop_trace {r : Runner} {dt : T} {we n i : Nat} {g g' : GroupInteraction T} (h : loop r dt we i n g = .ok () g') :
    ∃ σ mid : Nat → GroupInteraction T, σ i = g ∧ σ (i + n) = g' ∧ (n ≠ 0 → we ≠ 0) ∧ ∀ k, i ≤ k → k < i + n →
      (σ k).step r (Scalar.lit (k : ℚ) * dt) dt = .ok () (mid k) ∧
      (we ∣ k → (mid k).logRow (Scalar.lit (k : ℚ) * dt) = .ok () (σ (k + 1))) ∧ (¬ we ∣ k → σ (k + 1) = mid k) := by
  induction n generalizing i g with
  | zero =>
    simp only [loop, Out.ok, Out.mk.injEq, true_and] at h
    exact ⟨fun _ => g, fun _ => g, rfl, h, by simp, fun k h1 h2 => by omega⟩
  | succ n ih =>
    obtain ⟨m, s, h1, hw, h2, h3, h4⟩ := loop_succ.1 h
    obtain ⟨σ, mid, a1, a2, -, a4⟩ := ih h4
    refine ⟨fun k => if k = i then g else σ k, fun k => if k = i then m else mid k, by simp, ?_, fun _ => hw, ?_⟩
    · simp only [show i + (n + 1) ≠ i by omega, if_false]
      rw [show i + (n + 1) = i + 1 + n by omega, a2]
    · intro k k1 k2
      dsimp only
      by_cases hk : k = i
      · subst hk
        rw [if_pos rfl, if_pos rfl, if_neg (by omega), a1]
        exact ⟨h1, fun hd => h2 (Nat.mod_eq_zero_of_dvd hd), fun hd => h3 (fun hm => hd (Nat.dvd_of_mod_eq_zero hm))⟩
      · rw [if_neg hk, if_neg hk, if_neg (by omega)]
        exact a4 k (by omega) (by omega)

/-- C68: a successful run takes `N` steps at the times `k·dt` through the states `σ 0, …, σ N`. Between the steps only logs
change. Every member gets one new row for each step divisible by the write interval, with the time of the step and the
magnetisation of its layers after the step. -/
theorem C68_run {g g' : GroupInteraction T} (hr : ∀ j ∈ g.junctions, Reachable j ∧ DistinctIds j) {total dt wf : T}
    (h : g.runSimulation total dt wf = .ok () g') :
    ∃ (we N : Nat) (rms : List (Runner × SolverMode)) (js : List (Junction T)) (r : Runner) (σ mid : Nat → GroupInteraction T),
      castUnsigned (wf / dt) = some we ∧ castUnsigned (total / dt) = some N ∧ (N ≠ 0 → we ≠ 0) ∧
      solvers N g.junctions = .ok rms js ∧ σ 0 = g.withJunctions js ∧ σ N = g' ∧
      (∀ k < N, (σ k).step r (Scalar.lit (k : ℚ) * dt) dt = .ok () (mid k) ∧
        ∀ q p, groupLayer (σ (k + 1)) q p = groupLayer (mid k) q p) ∧
      ∀ (q : Nat) (j : Junction T), g.junctions[q]? = some j → ∃ j', g'.junctions[q]? = some j' ∧
        j'.logLength = j.logLength + (sampleSteps N we).length ∧
        j'.log.col "time" = j.log.col "time" ++ (sampleSteps N we).map (fun k : Nat => Scalar.lit (k : ℚ) * dt) ∧
        ∀ (p : Nat) (l : Layer T), j.layers[p]? = some l → ∃ m : Nat → Layer T,
          (∀ k < N, groupLayer (mid k) q p = some (m k)) ∧
          j'.log.col (l.id ++ "_mx") = j.log.col (l.id ++ "_mx") ++ (sampleSteps N we).map (fun k => (m k).mag.x) ∧
          j'.log.col (l.id ++ "_my") = j.log.col (l.id ++ "_my") ++ (sampleSteps N we).map (fun k => (m k).mag.y) ∧
          j'.log.col (l.id ++ "_mz") = j.log.col (l.id ++ "_mz") ++ (sampleSteps N we).map (fun k => (m k).mag.z) := by
  obtain ⟨we, N, rms, js, r, m, h1, h2, h3, h4, h5, h6, h7⟩ := run_inv h
  obtain ⟨σ, mid, a1, a2, a3, a4⟩ := loop_trace h7
  rw [Nat.zero_add] at a2
  replace a4 : ∀ k < N, _ := fun k hk => a4 k (Nat.zero_le _) (by omega)
  refine ⟨we, N, rms, js, r, σ, mid, h1, h2, a3, h4, a1, a2, fun k hk => ⟨(a4 k hk).1, ?_⟩, ?_⟩
  · intro q p
    obtain ⟨-, b2, b3⟩ := a4 k hk
    by_cases hd : we ∣ k
    · obtain ⟨ls, e1, e2, e3⟩ := (logRow_iff ..).1 (b2 hd)
      rw [e1]
      unfold groupLayer
      rcases hq : (mid k).junctions[q]? with _ | j
      · have : (mid k).junctions.length ≤ q := List.getElem?_eq_none_iff.1 hq
        rw [show ((mid k).withJunctions ls).junctions = ls from rfl, List.getElem?_eq_none (by omega)]
      · obtain ⟨j', k1, k2⟩ := e3 q j hq
        rw [show ((mid k).withJunctions ls).junctions = ls from rfl, k2]
        simp only [Option.bind_some]
        have := log_layers j (Scalar.lit (k : ℚ) * dt) false
        rw [k1] at this
        rw [show j'.layers = j.layers from this]
    · rw [b3 hd]
  · intro q j hj
    obtain ⟨hrj, hdj⟩ := hr j (List.mem_of_getElem? hj)
    obtain ⟨hmr, htag⟩ := Reachable_inv hrj
    -- the member after `n` steps
    have hinv : ∀ n ≤ N, ∃ jn, (σ n).junctions[q]? = some jn ∧ SameParams j jn ∧ jn.layers.map Layer.id = j.layers.map Layer.id ∧
        jn.logLength = j.logLength + (sampleSteps n we).length ∧
        ∃ mids : Nat → Junction T, (∀ k < n, (mid k).junctions[q]? = some (mids k) ∧ (mids k).layers.map Layer.id = j.layers.map Layer.id) ∧
          ∀ key, jn.log.col key = j.log.col key ++ (sampleSteps n we).flatMap
            fun k : Nat => Log.vals (rowOf j false ((mids k).layers, Scalar.lit (k : ℚ) * dt)) key := by
      intro n
      induction n with
      | zero =>
        intro _
        have hk := solvers_kept kept_logFrame N g.junctions
        rw [h4] at hk
        obtain ⟨j0, k1, k2, k3, k4, k5⟩ := forall₂_get hk hj
        refine ⟨j0, by rw [a1]; exact k1, k2, k3, by rw [k5]; simp [sampleSteps], fun _ => j, by simp, fun key => ?_⟩
        rw [k4]; simp [sampleSteps]
      | succ n ih =>
        intro hn
        obtain ⟨jn, c1, c2, c3, c4, mids, c5, c6⟩ := ih (by omega)
        obtain ⟨b1, b2, b3⟩ := a4 n (by omega)
        have hk := (step_kept kept_logFrame reserves_logFrame (σ n) r (Scalar.lit (n : ℚ) * dt) dt).2
        rw [b1] at hk
        obtain ⟨jm, d1, d2, d3, d4, d5⟩ := forall₂_get hk c1
        have hmids : ∀ k < n + 1, (mid k).junctions[q]? = some (if k = n then jm else mids k) ∧
            (if k = n then jm else mids k).layers.map Layer.id = j.layers.map Layer.id := by
          intro k hk'
          by_cases hkn : k = n
          · subst hkn; rw [if_pos rfl]; exact ⟨d1, d3.trans c3⟩
          · rw [if_neg hkn]; exact c5 k (by omega)
        have hcongr : ∀ key, ((sampleSteps n we).flatMap
            fun k : Nat => Log.vals (rowOf j false ((mids k).layers, Scalar.lit (k : ℚ) * dt)) key) =
            (sampleSteps n we).flatMap
            fun k : Nat => Log.vals (rowOf j false ((if k = n then jm else mids k).layers, Scalar.lit (k : ℚ) * dt)) key := by
          intro key
          refine List.flatMap_congr fun k hk' => ?_
          rw [if_neg (Nat.ne_of_lt (sample_lt hk').1)]
        by_cases hd : we ∣ n
        · obtain ⟨ls, e1, e2, e3⟩ := (logRow_iff ..).1 (b2 hd)
          obtain ⟨j', k1, k2⟩ := e3 q jm d1
          rw [log_row jm _ false ((c2.trans d2).mrOk hmr)] at k1
          simp only [Out.ok, Out.mk.injEq, true_and] at k1
          refine ⟨j', by rw [e1]; exact k2, ?_, ?_, ?_, _, hmids, fun key => ?_⟩
          · rw [← k1]; exact c2.trans d2
          · rw [← k1]; exact d3.trans c3
          · rw [← k1, sampleSteps_succ, if_pos hd]
            change jm.logLength + 1 = _
            rw [d5, c4, List.length_append, List.length_singleton]; omega
          · rw [← k1, sampleSteps_succ, if_pos hd, List.flatMap_append, ← hcongr, ← List.append_assoc, ← c6]
            change (jm.log.pushAll _).col key = _
            rw [Log.col_pushAll, d4]
            simp only [List.flatMap_cons, List.flatMap_nil, List.append_nil, if_pos]
            rw [rowOf_congr (c2.trans d2)]
        · refine ⟨jm, by rw [b3 hd]; exact d1, c2.trans d2, d3.trans c3, ?_, _, hmids, fun key => ?_⟩
          · rw [sampleSteps_succ, if_neg hd, List.append_nil, d5, c4]
          · rw [sampleSteps_succ, if_neg hd, List.append_nil, ← hcongr, d4, c6]
    obtain ⟨jn, c1, c2, c3, c4, mids, c5, c6⟩ := hinv N le_rfl
    have hms : ∀ k < N, (j.withLayers (mids k).layers).MrOk := fun k hk =>
      mrOk_withLayers hmr (by have := congrArg List.length (c5 k hk).2; simpa using this)
    refine ⟨jn, by rw [← a2]; exact c1, c4, ?_, ?_⟩
    · rw [c6]
      congr 1
      exact flatMap_single _ _ _ fun k hk => row_time j (hms k (sample_lt hk).1) htag (c5 k (sample_lt hk).1).2.symm
    · intro p l hl
      have hget : ∀ k < N, ∃ l', (mids k).layers[p]? = some l' ∧ l'.id = l.id := by
        intro k hk
        have := congrArg (·[p]?) (c5 k hk).2
        simp only [List.getElem?_map, hl, Option.map_some] at this
        obtain ⟨l', e1, e2⟩ := Option.map_eq_some_iff.1 this
        exact ⟨l', e1, e2⟩
      have main : ∀ (s : String) (f : CVec T → T), Keys.Suf s →
          (∀ l' : Layer T, Log.vals (layerEntries l' false) (l'.id ++ s) = [f l'.mag]) →
          jn.log.col (l.id ++ s) = j.log.col (l.id ++ s) ++ (sampleSteps N we).map (fun k => f (((mids k).layers[p]?).getD l).mag) := by
        intro s f hs hv
        rw [c6]
        congr 1
        refine flatMap_single _ _ _ fun k hk => ?_
        obtain ⟨l', e1, e2⟩ := hget k (sample_lt hk).1
        rw [e1, Option.getD_some, ← e2, row_layer j (hms k (sample_lt hk).1) htag (c5 k (sample_lt hk).1).2.symm
          (by rw [(c5 k (sample_lt hk).1).2]; exact hdj) (List.mem_of_getElem? e1) hs, hv]
      refine ⟨fun k => ((mids k).layers[p]?).getD l, fun k hk => ?_, main "_mx" CVec.x suf_mx fun l' => (vals_mag l' false).1,
        main "_my" CVec.y suf_my fun l' => (vals_mag l' false).2.1, main "_mz" CVec.z suf_mz fun l' => (vals_mag l' false).2.2⟩
      obtain ⟨l', e1, e2⟩ := hget k hk
      unfold groupLayer
      rw [(c5 k hk).1, Option.bind_some, e1]
      simp only [e1, Option.getD_some]

/-- the hypotheses of `C68_run` are met by two members 1 m apart with dipole interaction; both get one row -/
example : ∃ g g' : GroupInteraction ℝ, g.interaction = Dipole.compute ∧ (∀ j ∈ g.junctions, Reachable j ∧ DistinctIds j) ∧
    g.runSimulation 1 1 1 = .ok () g' := by
  obtain ⟨g', hg⟩ := twoOf_completes Dipole.compute ⟨0, 0, 0⟩ ⟨1, 0, 0⟩ (.inr ⟨.inl rfl, by unfold Apart away; norm_num⟩)
    Stack.pairJ Stack.pairJ (.inr rfl) (.inr rfl)
  refine ⟨_, g', rfl, ?_, hg⟩
  intro j hj
  simp [twoOf] at hj
  subst hj
  exact ⟨Stack.pairJ_reachable, by
    simp [DistinctIds, Stack.pairJ, quietLayer, longLayer, plainOf, Layer.demo]⟩

end GroupInteraction
