import Verif.Props.Groups
import Verif.Props.StackExamples

/-! # C39: the order of the members; C40: groups without interaction -/

set_option linter.unusedSectionVars false

namespace GroupInteraction
open Spec Junction

/-! ### Inversion of runs, every scalar type -/
section
variable {T : Type} [Scalar T]

/-- helper -/
theorem logRow_iff (g g' : GroupInteraction T) (t : T) : g.logRow t = .ok () g' ↔
    ∃ js, g' = g.withJunctions js ∧ js.length = g.junctions.length ∧
      ∀ (i : Nat) (j : Junction T), g.junctions[i]? = some j → ∃ j', j.logLayerParams t false = .ok () j' ∧ js[i]? = some j' := by
  constructor
  · intro h
    unfold logRow at h
    rcases ht : Out.traverse (fun _ j => j.logLayerParams t false) 0 g.junctions with ⟨_ | bs, js⟩
    · rw [ht] at h; simp [Out.ok, Out.fail] at h
    rw [ht] at h
    simp only [Out.ok, Out.mk.injEq, true_and] at h
    obtain ⟨-, l2, l3⟩ := Out.traverse_ok _ ht
    refine ⟨js, h.symm, l2, fun i j hj => ?_⟩
    obtain ⟨b, j', -, k2, k3⟩ := l3 i j hj
    exact ⟨j', k3, k2⟩
  · rintro ⟨js, rfl, hl, h⟩
    unfold logRow
    obtain ⟨bs, js', t1, -, t3, t4⟩ := Out.traverse_exists (fun _ (j : Junction T) => j.logLayerParams t false)
      (fun _ a _ a' => a.logLayerParams t false = .ok () a') 0 g.junctions (by
        intro k a hk
        obtain ⟨j', k1, -⟩ := h k a hk
        exact ⟨(), j', k1, k1⟩)
    rw [t1]
    have : js' = js := by
      obtain ⟨-, l2, l3⟩ := Out.traverse_ok _ t1
      apply List.ext_getElem?
      intro i
      rcases ha : g.junctions[i]? with _ | a
      · have hle : g.junctions.length ≤ i := List.getElem?_eq_none_iff.1 ha
        rw [List.getElem?_eq_none (by omega), List.getElem?_eq_none (by omega)]
      · obtain ⟨j', k1, k2⟩ := h i a ha
        obtain ⟨b, a', -, m2, m3⟩ := l3 i a ha
        rw [k1] at m3
        simp only [Out.ok, Out.mk.injEq] at m3
        rw [k2, m2, m3.2]
    rw [this]; rfl

/-- helper -/
theorem run_inv {g g' : GroupInteraction T} {total dt wf : T} (h : g.runSimulation total dt wf = .ok () g') :
    ∃ we N rms js r m, Stack.castUnsigned (wf / dt) = some we ∧ Stack.castUnsigned (total / dt) = some N ∧
      Scalar.ltb wf dt = false ∧ Stack.solvers N g.junctions = .ok rms js ∧ (∀ x ∈ rms, x.2 = m) ∧ rms.getLast? = some (r, m) ∧
      loop r dt we 0 N (g.withJunctions js) = .ok () g' := by
  unfold runSimulation at h
  split at h
  · rename_i we N hwe hN
    split at h
    · simp [Out.ok, Out.fail] at h
    · rename_i hw
      rcases hs : Stack.solvers N g.junctions with ⟨_ | rms, js⟩
      · rw [hs] at h; simp [Out.ok, Out.fail] at h
      · rw [hs] at h
        dsimp only at h
        split at h
        · simp [Out.ok, Out.fail] at h
        · rename_i rm rest
          split at h
          · simp [Out.ok, Out.fail] at h
          · rename_i hany
            have hall : ∀ x ∈ rm :: rest, x.2 = rm.2 := by
              intro x hx
              rcases List.mem_cons.1 hx with rfl | hx
              · rfl
              · by_contra hne
                exact hany (List.any_eq_true.2 ⟨x, hx, by simpa using hne⟩)
            refine ⟨we, N, rm :: rest, js, _, rm.2, hwe, hN, by simpa using hw, hs, hall, ?_, h⟩
            rw [List.getLast?_eq_some_getLast (by simp)]
            congr 1
            exact Prod.ext rfl (hall _ (List.getLast_mem _))
  · simp [Out.ok, Out.fail] at h

/-- helper -/
theorem run_of {g g' : GroupInteraction T} {total dt wf : T} {we N : Nat} {rms : List (Runner × SolverMode)} {js : List (Junction T)}
    {r : Runner} {m : SolverMode} (h1 : Stack.castUnsigned (wf / dt) = some we) (h2 : Stack.castUnsigned (total / dt) = some N)
    (h3 : Scalar.ltb wf dt = false) (h4 : Stack.solvers N g.junctions = .ok rms js) (h5 : ∀ x ∈ rms, x.2 = m)
    (h6 : rms.getLast? = some (r, m)) (h7 : loop r dt we 0 N (g.withJunctions js) = .ok () g') :
    g.runSimulation total dt wf = .ok () g' := by
  unfold runSimulation
  rw [h1, h2]
  dsimp only
  rw [h3, h4]
  simp only [Bool.false_eq_true, if_false, Out.ok]
  cases rms with
  | nil => simp at h6
  | cons rm rest =>
    dsimp only
    rw [if_neg]
    · rw [List.getLast?_eq_some_getLast (by simp)] at h6
      rw [Option.some.inj h6]
      exact h7
    · intro hany
      obtain ⟨x, hx, hne⟩ := List.any_eq_true.1 hany
      have := h5 x (List.mem_cons_of_mem _ hx)
      rw [this, h5 rm (by simp)] at hne
      simp at hne

/-- helper -/
theorem loop_succ {r : Runner} {dt : T} {we i n : Nat} {g g' : GroupInteraction T} :
    loop r dt we i (n + 1) g = .ok () g' ↔ ∃ m s, g.step r (Scalar.lit (i : ℚ) * dt) dt = .ok () m ∧ we ≠ 0 ∧
      (i % we = 0 → m.logRow (Scalar.lit (i : ℚ) * dt) = .ok () s) ∧ (i % we ≠ 0 → s = m) ∧ loop r dt we (i + 1) n s = .ok () g' := by
  constructor
  · intro h
    unfold loop at h
    obtain ⟨u, m, h1, h2⟩ := Out.bind_eq_ok h
    split at h2
    · simp [Out.ok, Out.fail] at h2
    · rename_i hw
      split at h2
      · rename_i hd
        obtain ⟨u', s, h3, h4⟩ := Out.bind_eq_ok h2
        exact ⟨m, s, h1, hw, fun _ => h3, fun hn => absurd hd hn, h4⟩
      · rename_i hd
        exact ⟨m, m, h1, hw, fun hn => absurd hn hd, fun _ => rfl, h2⟩
  · rintro ⟨m, s, h1, hw, h2, h3, h4⟩
    unfold loop
    dsimp only
    rw [h1, Out.bind_ok, if_neg hw]
    split
    · rename_i hd
      rw [h2 hd, Out.bind_ok]
      exact h4
    · rename_i hd
      rw [← h3 hd]
      exact h4

/-- helper -/
theorem solvers_iff (N : Nat) (js js' : List (Junction T)) (rms : List (Runner × SolverMode)) :
    Stack.solvers N js = .ok rms js' ↔ rms.length = js.length ∧ js'.length = js.length ∧
      ∀ (i : Nat) (j : Junction T), js[i]? = some j → ∃ rm j', j.getSolver .RK4 N = .ok rm j' ∧ rms[i]? = some rm ∧ js'[i]? = some j' := by
  constructor
  · intro h
    obtain ⟨l1, l2, l3⟩ := Out.traverse_ok _ h
    refine ⟨l1, l2, fun i j hj => ?_⟩
    obtain ⟨b, j', k1, k2, k3⟩ := l3 i j hj
    exact ⟨b, j', k3, k1, k2⟩
  · rintro ⟨h1, h2, h3⟩
    obtain ⟨bs, ks, t1, t2, t3, t4⟩ := Out.traverse_exists (fun _ (j : Junction T) => j.getSolver .RK4 N)
      (fun _ a b a' => a.getSolver .RK4 N = .ok b a') 0 js (by
        intro k a hk
        obtain ⟨rm, j', k1, -⟩ := h3 k a hk
        exact ⟨rm, j', k1, k1⟩)
    have e : bs = rms ∧ ks = js' := by
      obtain ⟨-, l2, l3⟩ := Out.traverse_ok _ t1
      constructor
      all_goals
        apply List.ext_getElem?
        intro i
        rcases ha : js[i]? with _ | a
        · have hle : js.length ≤ i := List.getElem?_eq_none_iff.1 ha
          rw [List.getElem?_eq_none (by omega), List.getElem?_eq_none (by omega)]
        · obtain ⟨rm, j', k1, k2, k3⟩ := h3 i a ha
          obtain ⟨b, a', m1, m2, m3⟩ := l3 i a ha
          rw [k1] at m3
          simp only [Out.ok, Out.mk.injEq, Except.ok.injEq] at m3
          simp only [k2, k3, m1, m2, m3.1, m3.2]
    unfold Stack.solvers
    rw [t1, e.1, e.2]

end

/-! ### Order of the members -/

/-- helper -/
theorem cvec_add (a b : CVec ℝ) : a + b = ⟨a.x + b.x, a.y + b.y, a.z + b.z⟩ := rfl

/-- helper -/
instance : RightCommutative (fun a b : CVec ℝ => a + b) where
  right_comm a b c := by simp only [cvec_add, CVec.mk.injEq]; refine ⟨?_, ?_, ?_⟩ <;> ring

/-- helper -/
theorem shuffle_perm {e : Nat → Nat} {n : Nat} (he : Shuffles e n) {i : Nat} (hi : i < n) :
    (((List.range n).filter (· ≠ i)).map e).Perm ((List.range n).filter (· ≠ e i)) := by
  have hnd : (((List.range n).filter (· ≠ i)).map e).Nodup := by
    refine List.Nodup.map_on ?_ (List.nodup_range.filter _)
    intro a ha b hb hab
    simp at ha hb
    exact he.2 a ha.1 b hb.1 hab
  have hall : ((List.range n).map e).Perm (List.range n) := by
    refine List.Subperm.perm_of_length_le (List.subperm_of_subset ?_ ?_) (by simp)
    · refine List.Nodup.map_on ?_ List.nodup_range
      intro a ha b hb hab
      exact he.2 a (by simpa using ha) b (by simpa using hb) hab
    · intro x hx
      obtain ⟨a, ha, rfl⟩ := List.mem_map.1 hx
      simpa using he.1 a (by simpa using ha)
  rw [List.perm_ext_iff_of_nodup hnd (List.nodup_range.filter _)]
  intro x
  constructor
  · intro hx
    obtain ⟨a, ha, rfl⟩ := List.mem_map.1 hx
    simp at ha ⊢
    exact ⟨he.1 a ha.1, fun h => ha.2 (he.2 a ha.1 i hi h)⟩
  · intro hx
    simp at hx
    have : x ∈ (List.range n).map e := hall.mem_iff.2 (by simpa using hx.1)
    obtain ⟨a, ha, rfl⟩ := List.mem_map.1 this
    refine List.mem_map.2 ⟨a, ?_, rfl⟩
    simp at ha ⊢
    exact ⟨ha, fun h => hx.2 (by rw [h])⟩

/-- helper: the field at a member does not depend on the order of the members -/
theorem fieldAt_reordered {e : Nat → Nat} {g g2 : GroupInteraction ℝ} (hr : Reordered e g g2) (he : Shuffles e g.junctions.length)
    {i : Nat} (hi : i < g.junctions.length) {v : CVec ℝ} (h : FieldAt g (e i) v) : FieldAt g2 i v := by
  obtain ⟨F, h1, h2⟩ := h
  have hm : ∀ k < g.junctions.length, memberLayer g2 k = memberLayer g (e k) := by
    intro k hk
    unfold memberLayer
    rw [hr.members k hk, hr.topId]
  refine ⟨fun k => F (e k), ?_, ?_⟩
  · intro k hk hki
    rw [hr.length] at hk
    obtain ⟨ri, rk, li, lk, a1, a2, a3, a4, a5⟩ := h1 (e k) (he.1 k hk) (fun h => hki (he.2 k hk i hi h))
    exact ⟨ri, rk, li, lk, by rw [hr.positions i hi, a1], by rw [hr.positions k hk, a2], by rw [hm i hi, a3], by rw [hm k hk, a4],
      by rw [hr.interaction, a5]⟩
  · rw [h2, hr.length]
    rw [show (fun k => F (e k)) = F ∘ e from rfl, ← List.map_map]
    exact (((shuffle_perm he hi).map F).foldl_eq _).symm

/-- helper -/
theorem reindex {α : Type} {e : Nat → Nat} (xs : List α) (h : ∀ i < xs.length, e i < xs.length) :
    ∃ ys : List α, ys.length = xs.length ∧ ∀ i < xs.length, ys[i]? = xs[e i]? := by
  refine ⟨List.ofFn (fun i : Fin xs.length => xs[e i]'(h i i.2)), by simp, fun i hi => ?_⟩
  rw [List.getElem?_eq_getElem (h i hi)]
  simp [hi]

/-- C39: a step of the reordered group succeeds with the step of the original, and gives the reordered result. -/
theorem C39_step_order (e : Nat → Nat) (g g2 g' : GroupInteraction ℝ) (hb : Blind g.interaction) (hr : Reordered e g g2)
    (he : Shuffles e g.junctions.length) (r : Runner) (t dt : ℝ) (h : g.step r t dt = .ok () g') :
    ∃ g2', g2.step r t dt = .ok () g2' ∧ Reordered e g' g2' := by
  obtain ⟨js, rfl, h1, h2⟩ := (C39_simultaneous g g' hb r t dt).1 h
  obtain ⟨js2, l1, l2⟩ := reindex (e := e) js (by rw [h1]; exact he.1)
  have hl2 : js2.length = g2.junctions.length := by rw [l1, h1, hr.length]
  refine ⟨{ g2 with junctions := js2 }, (C39_simultaneous g2 _ (hr.interaction ▸ hb) r t dt).2 ⟨js2, rfl, hl2, ?_⟩,
    hr.topId, hr.interaction, l1, fun i hi => hr.positions i (h1 ▸ hi), fun i hi => l2 i hi⟩
  intro i j hj
  have hi : i < g.junctions.length := by rw [← hr.length]; exact (List.getElem?_eq_some_iff.1 hj).1
  rw [hr.members i hi] at hj
  obtain ⟨v, a, j', k1, k2, k3, k4⟩ := h2 (e i) j hj
  exact ⟨v, a, j', fieldAt_reordered hr he hi k1, by rw [hr.topId]; exact k2, k3, by rw [l2 i (h1 ▸ hi), k4]⟩

/-- helper -/
theorem logRow_order {e : Nat → Nat} {g g2 g' : GroupInteraction ℝ} (hr : Reordered e g g2)
    (he : Shuffles e g.junctions.length) {t : ℝ} (h : g.logRow t = .ok () g') :
    ∃ g2', g2.logRow t = .ok () g2' ∧ Reordered e g' g2' := by
  obtain ⟨js, rfl, h1, h2⟩ := (logRow_iff ..).1 h
  obtain ⟨js2, l1, l2⟩ := reindex (e := e) js (by rw [h1]; exact he.1)
  refine ⟨g2.withJunctions js2, (logRow_iff ..).2 ⟨js2, rfl, by rw [l1, h1, hr.length], ?_⟩,
    hr.topId, hr.interaction, l1, fun i hi => hr.positions i (h1 ▸ hi), fun i hi => l2 i hi⟩
  intro i j hj
  have hi : i < g.junctions.length := by rw [← hr.length]; exact (List.getElem?_eq_some_iff.1 hj).1
  rw [hr.members i hi] at hj
  obtain ⟨j', k1, k2⟩ := h2 (e i) j hj
  exact ⟨j', k1, by rw [l2 i (h1 ▸ hi), k2]⟩

/-- helper: the frame of a step -/
theorem step_frame {g g' : GroupInteraction ℝ} (hb : Blind g.interaction) {r : Runner} {t dt : ℝ} (h : g.step r t dt = .ok () g') :
    g' = { g with junctions := g'.junctions } ∧ g'.junctions.length = g.junctions.length := by
  obtain ⟨js, rfl, h1, -⟩ := (C39_simultaneous g g' hb r t dt).1 h
  exact ⟨rfl, h1⟩

/-- helper -/
theorem loop_order {e : Nat → Nat} {r : Runner} {dt : ℝ} {we n i : Nat} {g g2 g' : GroupInteraction ℝ} (hb : Blind g.interaction)
    (hr : Reordered e g g2) (he : Shuffles e g.junctions.length) (h : loop r dt we i n g = .ok () g') :
    ∃ g2', loop r dt we i n g2 = .ok () g2' ∧ Reordered e g' g2' := by
  induction n generalizing i g g2 with
  | zero =>
    simp only [loop, Out.ok, Out.mk.injEq, true_and] at h
    subst h
    exact ⟨g2, rfl, hr⟩
  | succ n ih =>
    obtain ⟨m, s, h1, hw, h2, h3, h4⟩ := loop_succ.1 h
    obtain ⟨m2, k1, k2⟩ := C39_step_order e g g2 m hb hr he r _ dt h1
    obtain ⟨f1, f2⟩ := step_frame hb h1
    have hbm : Blind m.interaction := by rw [f1]; exact hb
    by_cases hd : i % we = 0
    · obtain ⟨s2, k3, k4⟩ := logRow_order k2 (f2 ▸ he) (h2 hd)
      obtain ⟨js, e1, e2, -⟩ := (logRow_iff ..).1 (h2 hd)
      obtain ⟨g2', k5, k6⟩ := ih (g := s) (by rw [e1]; exact hbm) k4 (by rw [e1]; change Shuffles e js.length; rw [e2, f2]; exact he) h4
      exact ⟨g2', loop_succ.2 ⟨m2, s2, k1, hw, fun _ => k3, fun hn => absurd hd hn, k5⟩, k6⟩
    · have hs := h3 hd
      subst hs
      obtain ⟨g2', k5, k6⟩ := ih hbm k2 (f2 ▸ he) h4
      exact ⟨g2', loop_succ.2 ⟨m2, m2, k1, hw, fun hn => absurd hn hd, fun _ => rfl, k5⟩, k6⟩

/-- C39: listing the members of a group in another order, each with its position, gives the same run with the results
in that order: a run of the original that succeeds makes the run of the reordered group succeed. The members need the
same number of layers. (Different numbers: `C39_order_refuted`.) -/
theorem C39_order_partial (e : Nat → Nat) (g g2 g' : GroupInteraction ℝ) (hb : Blind g.interaction) (hr : Reordered e g g2)
    (he : Shuffles e g.junctions.length) (L : Nat) (hL : ∀ j ∈ g.junctions, j.layers.length = L) (total dt wf : ℝ)
    (h : g.runSimulation total dt wf = .ok () g') :
    ∃ g2', g2.runSimulation total dt wf = .ok () g2' ∧ Reordered e g' g2' := by
  obtain ⟨we, N, rms, js, r, m, h1, h2, h3, h4, h5, h6, h7⟩ := run_inv h
  obtain ⟨a1, a2, a3⟩ := (solvers_iff ..).1 h4
  have hpick : ∀ x ∈ rms, x = (pickRunner L m, m) := by
    intro x hx
    obtain ⟨i, hi⟩ := List.getElem?_of_mem hx
    have hlt : i < g.junctions.length := a1 ▸ (List.getElem?_eq_some_iff.1 hi).1
    obtain ⟨rm, j', k1, k2, -⟩ := a3 i g.junctions[i] (List.getElem?_eq_getElem hlt)
    rw [hi] at k2
    cases k2
    obtain ⟨-, c2⟩ := getSolver_carry .null _ .RK4 N k1
    rw [hL _ (List.getElem_mem hlt), h5 x hx] at c2
    exact Prod.ext c2 (h5 x hx)
  obtain ⟨js2, l1, l2⟩ := reindex (e := e) js (by rw [a2]; exact he.1)
  obtain ⟨rms2, l3, l4⟩ := reindex (e := e) rms (by rw [a1]; exact he.1)
  have hs2 : Stack.solvers N g2.junctions = .ok rms2 js2 := by
    refine (solvers_iff ..).2 ⟨by rw [l3, a1, hr.length], by rw [l1, a2, hr.length], ?_⟩
    intro i j hj
    have hi : i < g.junctions.length := by rw [← hr.length]; exact (List.getElem?_eq_some_iff.1 hj).1
    rw [hr.members i hi] at hj
    obtain ⟨rm, j', k1, k2, k3⟩ := a3 (e i) j hj
    exact ⟨rm, j', k1, by rw [l4 i (a1 ▸ hi), k2], by rw [l2 i (a2 ▸ hi), k3]⟩
  have hmem2 : ∀ x ∈ rms2, x = (pickRunner L m, m) := by
    intro x hx
    obtain ⟨i, hi⟩ := List.getElem?_of_mem hx
    have hlt : i < rms.length := l3 ▸ (List.getElem?_eq_some_iff.1 hi).1
    rw [l4 i hlt] at hi
    exact hpick x (List.mem_of_getElem? hi)
  have hrr : r = pickRunner L m := congrArg Prod.fst (hpick (r, m) (List.mem_of_getLast? h6))
  have hlast2 : rms2.getLast? = some (r, m) := by
    have hne : rms2 ≠ [] := by
      rintro rfl
      rw [List.length_eq_zero_iff.1 l3.symm] at h6
      simp at h6
    rw [List.getLast?_eq_some_getLast hne, hmem2 _ (List.getLast_mem _), hrr]
  have hr' : Reordered e (g.withJunctions js) (g2.withJunctions js2) :=
    ⟨hr.topId, hr.interaction, l1, fun i hi => hr.positions i (a2 ▸ hi), fun i hi => l2 i hi⟩
  obtain ⟨g2', k1, k2⟩ := loop_order (g := g.withJunctions js) hb hr' (by change Shuffles e js.length; rw [a2]; exact he) h7
  exact ⟨g2', run_of h1 h2 h3 hs2 (fun x hx => congrArg Prod.snd (hmem2 x hx)) hlast2 k1, k2⟩

/-! ### Without interaction -/

/-- helper -/
theorem solverLoop_map {T : Type} [Scalar T] (f : Layer T → Layer T) (h1 : ∀ l, (f l).temperatureSet = l.temperatureSet)
    (h2 : ∀ l, (f l).noiseParams = l.noiseParams)
    (h3 : ∀ l n, (f l).createBufferedAlphaNoise n = ⟨(l.createBufferedAlphaNoise n).res, f (l.createBufferedAlphaNoise n).st⟩)
    (n : Nat) (mode : SolverMode) (ls : List (Layer T)) :
    solverLoop n mode (ls.map f) = ⟨(solverLoop n mode ls).res, (solverLoop n mode ls).st.map f⟩ := by
  induction ls generalizing mode with
  | nil => rfl
  | cons l ls ih =>
    rw [List.map_cons]
    unfold solverLoop
    dsimp only
    rw [h1, h2]
    split
    · rw [ih]
      generalize solverLoop n (if l.temperatureSet = true then noisyMode mode else mode) ls = x
      rcases x with ⟨r, x⟩; rfl
    · rw [h3]
      rcases l.createBufferedAlphaNoise n with ⟨_ | _, l'⟩
      · rfl
      · dsimp only
        rw [ih]
        generalize solverLoop n (noisyMode (if l.temperatureSet = true then noisyMode mode else mode)) ls = x
        rcases x with ⟨r, x⟩; rfl

/-- helper: the member under zero field -/
noncomputable def rest (id : String) (j : Junction ℝ) : Junction ℝ := mapAddressed id (·.setReservedInteractionField .null) j

/-- helper -/
theorem getSolver_rest (id : String) (j : Junction ℝ) (n : Nat) {rm : Runner × SolverMode} {j1 : Junction ℝ}
    (h : j.getSolver .RK4 n = .ok rm j1) : (rest id j).getSolver .RK4 n = .ok rm (rest id j1) := by
  unfold getSolver at h ⊢
  unfold rest mapAddressed
  dsimp only
  rw [solverLoop_map (fun l => if Addressed id l then l.setReservedInteractionField .null else l)]
  · rcases hs : solverLoop n .RK4 j.layers with ⟨_ | m, ls⟩
    · rw [hs] at h; simp [Out.ok, Out.fail] at h
    · rw [hs] at h
      simp only [Out.ok, Out.mk.injEq, Except.ok.injEq] at h
      obtain ⟨rfl, rfl⟩ := h
      dsimp only
      unfold layerNo
      simp [Out.ok]
  · intro l; split <;> rfl
  · intro l; split <;> rfl
  · intro l n
    have hid : ∀ l : Layer ℝ, Addressed id (l.createBufferedAlphaNoise n).st ↔ Addressed id l := by
      intro l
      unfold Addressed
      have : (l.createBufferedAlphaNoise n).st.id = l.id := by
        unfold Layer.createBufferedAlphaNoise
        split
        · rfl
        · split <;> rfl
      rw [this]
    simp only [hid]
    split
    · unfold Layer.createBufferedAlphaNoise
      rw [show (l.setReservedInteractionField .null).noiseParams = l.noiseParams from rfl]
      split
      · rfl
      · rw [show (l.setReservedInteractionField .null).alphaSrc = l.alphaSrc from rfl,
          show (l.setReservedInteractionField .null).bfnCount = l.bfnCount from rfl]
        split <;> rfl
    · rfl

/-- helper -/
theorem rest_fix {id : String} {j : Junction ℝ} (h : ∀ l ∈ j.layers, Addressed id l → l.HreservedDriver = .null) : rest id j = j := by
  unfold rest mapAddressed
  have : j.layers.map (fun l => if Addressed id l then l.setReservedInteractionField .null else l) = j.layers := by
    conv_rhs => rw [← List.map_id j.layers]
    refine List.map_congr_left fun l hl => ?_
    split
    · rename_i ha
      rw [← h l hl ha]; rfl
    · rfl
  rw [this]

/-- helper -/
theorem rest_mem (id : String) (j : Junction ℝ) : ∀ l ∈ (rest id j).layers, Addressed id l → l.HreservedDriver = .null := by
  intro l hl ha
  obtain ⟨x, -, rfl⟩ := List.mem_map.1 hl
  dsimp only at ha ⊢
  by_cases hx : Addressed id x
  · simp only [hx, if_true]
    rfl
  · simp only [hx, if_false] at ha

/-- helper -/
theorem rest_step (id : String) (j : Junction ℝ) (r : Runner) (t dt : ℝ) :
    ∀ l ∈ ((rest id j).runStep r t dt).st.layers, Addressed id l → l.HreservedDriver = .null := by
  have hs := runStep_same (rest id j) r t dt
  intro l hl ha
  obtain ⟨i, hi⟩ := List.getElem?_of_mem hl
  obtain ⟨l0, h0, h1⟩ := hs.flip.getElem?_some hi
  obtain ⟨_, _, _, _, _, rfl⟩ := h1
  exact rest_mem id j l0 (List.mem_of_getElem? h0) ha

/-- helper: one step of a member -/
theorem step_quiet {g g' : GroupInteraction ℝ} (hn : g.interaction = Dipole.null) {r : Runner} {t dt : ℝ}
    (h : g.step r t dt = .ok () g') (q : Nat) (j : Junction ℝ) (hj : g.junctions[q]? = some j) :
    ∃ j', g'.junctions[q]? = some j' ∧ (rest g.topId j).runStep r t dt = .ok () j' ∧ rest g.topId j' = j' ∧
      j.setLayerReservedInteractionField g.topId .null = .ok () (rest g.topId j) := by
  obtain ⟨js, rfl, -, h2⟩ := (C39_simultaneous g g' (hn ▸ C39_blind.1) r t dt).1 h
  obtain ⟨v, a, j', ⟨F, f1, f2⟩, k2, k3, k4⟩ := h2 q j hj
  have hv : v = .zero := by
    rw [f2]
    have hF : ∀ k ∈ (List.range g.junctions.length).filter (· ≠ q), F k = .zero := by
      intro k hk
      simp at hk
      obtain ⟨_, _, _, _, _, _, _, _, he⟩ := f1 k hk.1 hk.2
      rw [hn] at he
      exact (Except.ok.inj he).symm
    rw [List.map_congr_left hF]
    generalize (List.range g.junctions.length).filter (· ≠ q) = ks
    have hz : (CVec.zero : CVec ℝ) + CVec.zero = CVec.zero := by simp [cvec_add, CVec.zero]
    induction ks with
    | nil => rfl
    | cons k ks ih => rw [List.map_cons, List.foldl_cons, hz, ih]
  rw [hv] at k2
  have hd : (AxialDriver.ofVec (CVec.zero : CVec ℝ)) = .null := rfl
  rw [hd] at k2
  have ha : a = rest g.topId j := by
    unfold Junction.setLayerReservedInteractionField at k2
    rw [layerSetter_pure] at k2
    split at k2
    · simp only [Out.ok, Out.mk.injEq, true_and] at k2
      exact k2.symm
    · simp [Out.ok, Out.fail] at k2
  subst ha
  refine ⟨j', k4, k3, rest_fix ?_, k2⟩
  have := rest_step g.topId j r t dt
  rw [k3] at this
  exact this

/-- helper -/
theorem loop_quiet {r : Runner} {dt : ℝ} {we n i : Nat} {g g' : GroupInteraction ℝ} (hn : g.interaction = Dipole.null)
    (h : loop r dt we i n g = .ok () g') (q : Nat) (j : Junction ℝ) (hj : g.junctions[q]? = some j) :
    ∃ j', g'.junctions[q]? = some j' ∧ runLoop r dt we false i n (rest g.topId j) = .ok () (rest g.topId j') := by
  induction n generalizing i g j with
  | zero =>
    simp only [loop, Out.ok, Out.mk.injEq, true_and] at h
    subst h
    exact ⟨j, hj, rfl⟩
  | succ n ih =>
    obtain ⟨m, s, h1, hw, h2, h3, h4⟩ := loop_succ.1 h
    obtain ⟨j1, e1, e2, e3, -⟩ := step_quiet hn h1 q j hj
    obtain ⟨f1, -⟩ := step_frame (hn ▸ C39_blind.1) h1
    unfold runLoop
    dsimp only
    rw [e2]
    simp only [Out.bind_ok]
    rw [if_neg hw]
    have hmn : m.interaction = Dipole.null := by rw [f1]; exact hn
    have hmt : m.topId = g.topId := by rw [f1]
    by_cases hd : i % we = 0
    · rw [if_pos hd]
      obtain ⟨js, rfl, -, g4⟩ := (logRow_iff ..).1 (h2 hd)
      obtain ⟨j2, k1, k2⟩ := g4 q j1 e1
      obtain ⟨j', i1, i2⟩ := ih (g := m.withJunctions js) hmn h4 j2 k2
      refine ⟨j', i1, ?_⟩
      rw [k1, Out.bind_ok]
      change runLoop r dt we false (i + 1) n (rest m.topId j2) = .ok () (rest m.topId j') at i2
      rw [hmt, rest_fix (j := j2)] at i2
      · exact i2
      · rw [Stack.log_mags k1, ← e3]
        exact rest_mem _ _
    · rw [if_neg hd]
      have hs := h3 hd
      subst hs
      obtain ⟨j', i1, i2⟩ := ih hmn h4 j1 e1
      rw [hmt, e3] at i2
      exact ⟨j', i1, i2⟩

/-- C40: with the null interaction, a successful run of a group whose members have equally many layers takes each member
through exactly the run it makes alone once its reserved interaction field is zero: same magnetisations, same log.
(Different numbers of layers: `C40_mixed_refuted`.) -/
theorem C40_independent_partial (g g' : GroupInteraction ℝ) (hn : g.interaction = Dipole.null) (L : Nat)
    (hL : ∀ j ∈ g.junctions, j.layers.length = L) (total dt wf : ℝ) (hdt : 0 < dt) (ht : 0 ≤ total)
    (h : g.runSimulation total dt wf = .ok () g') (q : Nat) (j : Junction ℝ) (hj : g.junctions[q]? = some j)
    (hz : ∀ l ∈ j.layers, l.HreservedDriver = .null) :
    ∃ j' b, g'.junctions[q]? = some j' ∧ j.runSimulation total dt wf false .RK4 = .ok () b ∧
      j'.layers.map Layer.mag = b.layers.map Layer.mag ∧ j'.log = b.log ∧ j'.logLength = b.logLength := by
  obtain ⟨we, N, rms, js, r, m, h1, h2, h3, h4, h5, h6, h7⟩ := run_inv h
  obtain ⟨a1, a2, a3⟩ := (solvers_iff ..).1 h4
  obtain ⟨rm, j1, k1, k2, k3⟩ := a3 q j hj
  have hrun : rm.1 = r := by
    have hm := h5 rm (List.mem_of_getElem? k2)
    have hlast : rms[rms.length - 1]? = some (r, m) := by rw [← List.getLast?_eq_getElem?]; exact h6
    have hpos : rms.length - 1 < g.junctions.length := by
      have := (List.getElem?_eq_some_iff.1 hj).1; omega
    obtain ⟨rm', j2, b1, b2, b3⟩ := a3 (rms.length - 1) g.junctions[rms.length - 1] (List.getElem?_eq_getElem hpos)
    rw [hlast] at b2
    cases b2
    obtain ⟨-, c3⟩ := getSolver_carry .null _ .RK4 N b1
    obtain ⟨-, c2⟩ := getSolver_carry .null _ .RK4 N k1
    dsimp only at c3
    rw [c2, c3, hL j (List.mem_of_getElem? hj), hL _ (List.getElem_mem hpos), hm]
  obtain ⟨j', i1, i2⟩ := loop_quiet (g := g.withJunctions js) hn h7 q j1 k3
  have hrest : rest g.topId j = j := rest_fix fun l hl _ => hz l hl
  have hs := getSolver_rest g.topId j N k1
  rw [hrest] at hs
  refine ⟨j', rest g.topId j', i1, ?_, ?_, rfl, rfl⟩
  · unfold Junction.runSimulation
    have hwd : dt ≤ wf := by simpa using h3
    rw [h3, Stack.cast_toUInt h1 (div_nonneg (hdt.le.trans hwd) hdt.le), Stack.cast_toUInt h2 (div_nonneg ht hdt.le)]
    simp only [Bool.false_eq_true, if_false]
    rw [hs, Out.bind_ok, hrun]
    exact i2
  · unfold rest mapAddressed
    rw [List.map_map]
    refine List.map_congr_left fun l _ => ?_
    simp only [Function.comp]
    split <;> rfl

end GroupInteraction
