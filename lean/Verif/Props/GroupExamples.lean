import Verif.Props.GroupRuns
import Verif.Props.Dipoles

/-! # C39, C40: when group runs complete, groups with members of different kinds, concrete groups -/

set_option linter.unusedSectionVars false

namespace GroupInteraction
open Spec Junction

/-- helper: what a member needs -/
structure Fit (id : String) (j : Junction ℝ) : Prop where
  nonempty : j.layers ≠ []
  calm : Stack.Calm j
  named : (layerNamed id j).isSome
  mr : j.MrOk

/-- helper -/
theorem named_iff (id : String) (j : Junction ℝ) : (layerNamed id j).isSome ↔ ∃ l ∈ j.layers, l.id = id := by
  unfold layerNamed
  rw [List.isSome_head?, ← List.isEmpty_eq_false_iff, ← Bool.not_eq_true, List.isEmpty_iff]
  simp [List.filter_eq_nil_iff]

/-- helper -/
theorem Fit.dress {id : String} {j : Junction ℝ} (h : Fit id j) (d : AxialDriver ℝ) :
    Fit id (mapAddressed id (·.setReservedInteractionField d) j) where
  nonempty := by
    intro h0
    exact h.nonempty (List.map_eq_nil_iff.1 h0)
  calm := by
    intro l hl
    obtain ⟨x, hx, rfl⟩ := List.mem_map.1 hl
    dsimp only
    split <;> exact h.calm x hx
  named := by
    obtain ⟨l, hl, hid⟩ := (named_iff id j).1 h.named
    exact (named_iff ..).2 ⟨_, List.mem_map.2 ⟨l, hl, rfl⟩, by dsimp only; split <;> exact hid⟩
  mr := mrOk_withLayers h.mr (ls := j.layers.map _) (by simp)

/-- helper -/
theorem Fit.same {id : String} {j k : Junction ℝ} (h : Fit id j) (hs : List.Forall₂ Layer.Same j.layers k.layers) (hm : k.MrOk) :
    Fit id k where
  nonempty := by
    intro h0
    rw [h0] at hs
    exact h.nonempty (List.length_eq_zero_iff.1 hs.length_eq)
  calm := Stack.calm_same hs h.calm
  named := by
    obtain ⟨l, hl, hid⟩ := (named_iff id j).1 h.named
    obtain ⟨i, hi⟩ := List.getElem?_of_mem hl
    obtain ⟨l', h1, h2⟩ := hs.getElem?_some hi
    exact (named_iff ..).2 ⟨l', List.mem_of_getElem? h1, h2.id.trans hid⟩
  mr := hm

/-- The interaction gives a field for every pair of different members, whatever their layers. -/
def Total (g : GroupInteraction ℝ) : Prop := ∀ (i k : Nat) (ri rk : CVec ℝ), i ≠ k → g.positions[i]? = some ri → g.positions[k]? = some rk →
  ∀ l l', ∃ v, g.interaction ri rk l l' = .ok v

/-- helper -/
structure Ready (g : GroupInteraction ℝ) : Prop where
  length : g.positions.length = g.junctions.length
  blind : Blind g.interaction
  total : Total g
  fit : ∀ j ∈ g.junctions, Fit g.topId j

/-- helper -/
theorem Ready.member {g : GroupInteraction ℝ} (h : Ready g) {i : Nat} (hi : i < g.junctions.length) : ∃ l, memberLayer g i = some l := by
  unfold memberLayer
  rw [List.getElem?_eq_getElem hi, Option.bind_some]
  exact Option.isSome_iff_exists.1 (h.fit _ (List.getElem_mem hi)).named

/-- helper -/
theorem Ready.field {g : GroupInteraction ℝ} (h : Ready g) {i : Nat} (hi : i < g.junctions.length) : ∃ v, FieldAt g i v := by
  have : ∀ k, ∃ v, k < g.junctions.length → k ≠ i → ActsWith g k i v := by
    intro k
    by_cases hk : k < g.junctions.length
    · by_cases hki : k = i
      · exact ⟨.zero, fun _ hn => absurd hki hn⟩
      · obtain ⟨li, hli⟩ := h.member hi
        obtain ⟨lk, hlk⟩ := h.member hk
        have hpi : i < g.positions.length := h.length ▸ hi
        have hpk : k < g.positions.length := h.length ▸ hk
        obtain ⟨v, hv⟩ := h.total i k _ _ (Ne.symm hki) (List.getElem?_eq_getElem hpi) (List.getElem?_eq_getElem hpk) li lk
        exact ⟨v, fun _ _ => ⟨_, _, li, lk, List.getElem?_eq_getElem hpi, List.getElem?_eq_getElem hpk, hli, hlk, hv⟩⟩
    · exact ⟨.zero, fun hn => absurd hn hk⟩
  choose F hF using this
  exact ⟨_, F, hF, rfl⟩

/-- helper -/
theorem Ready.step {g : GroupInteraction ℝ} (h : Ready g) (r : Runner) (t dt : ℝ) : ∃ g', g.step r t dt = .ok () g' ∧ Ready g' := by
  have key : ∀ i, ∃ x : Junction ℝ, ∀ j, g.junctions[i]? = some j → ∃ v a, FieldAt g i v ∧
      j.setLayerReservedInteractionField g.topId (.ofVec v) = .ok () a ∧ a.runStep r t dt = .ok () x ∧ Fit g.topId x := by
    intro i
    by_cases hi : i < g.junctions.length
    · obtain ⟨v, hv⟩ := h.field hi
      have hfit := h.fit _ (List.getElem_mem hi)
      have hset : g.junctions[i].setLayerReservedInteractionField g.topId (.ofVec v) =
          .ok () (mapAddressed g.topId (·.setReservedInteractionField (.ofVec v)) g.junctions[i]) := by
        unfold Junction.setLayerReservedInteractionField
        rw [layerSetter_pure, if_pos]
        obtain ⟨l, hl, hid⟩ := (named_iff _ _).1 hfit.named
        exact ⟨l, hl, .inl hid⟩
      have hd := hfit.dress (.ofVec v)
      obtain ⟨x, hx⟩ := runStep_real_ok _ hd.nonempty (fun l hl => (hd.calm l hl).1) (fun l hl => (hd.calm l hl).2) r t dt
      refine ⟨x, fun j hj => ?_⟩
      rw [List.getElem?_eq_getElem hi] at hj
      cases hj
      refine ⟨v, _, hv, hset, hx, ?_⟩
      have h1 := runStep_same (mapAddressed g.topId (·.setReservedInteractionField (.ofVec v)) g.junctions[i]) r t dt
      have h2 := runStep_params (mapAddressed g.topId (·.setReservedInteractionField (.ofVec v)) g.junctions[i]) r t dt
      rw [hx] at h1 h2
      exact hd.same h1 (h2.mrOk hd.mr)
    · exact ⟨demoJ, fun j hj => absurd (List.getElem?_eq_some_iff.1 hj).1 hi⟩
  choose X hX using key
  have hidx : ∀ i < g.junctions.length, ((List.range g.junctions.length).map X)[i]? = some (X i) := by
    intro i hi
    rw [List.getElem?_map, List.getElem?_range hi]; rfl
  refine ⟨{ g with junctions := (List.range g.junctions.length).map X }, (C39_simultaneous g _ h.blind r t dt).2 ⟨_, rfl, by simp, ?_⟩, ?_⟩
  · intro i j hj
    obtain ⟨v, a, k1, k2, k3, -⟩ := hX i j hj
    exact ⟨v, a, X i, k1, k2, k3, hidx i (List.getElem?_eq_some_iff.1 hj).1⟩
  · refine ⟨by simpa using h.length, h.blind, h.total, ?_⟩
    intro j hj
    obtain ⟨i, hi, rfl⟩ := List.mem_map.1 hj
    have hi : i < g.junctions.length := by simpa using hi
    obtain ⟨_, _, _, _, _, k⟩ := hX i _ (List.getElem?_eq_getElem hi)
    exact k

/-- helper -/
theorem Ready.logRow {g : GroupInteraction ℝ} (h : Ready g) (t : ℝ) : ∃ g', g.logRow t = .ok () g' ∧ Ready g' := by
  obtain ⟨bs, js, t1, -, t3, t4⟩ := Out.traverse_exists (fun _ (j : Junction ℝ) => j.logLayerParams t false)
    (fun _ _ _ a' => Fit g.topId a') 0 g.junctions (by
      intro k j hj
      have hf := h.fit j (List.mem_of_getElem? hj)
      obtain ⟨x, hx, hl, hp⟩ := log_ok j t false hf.mr
      refine ⟨(), x, hx, ?_⟩
      refine hf.same ?_ (hp.mrOk hf.mr)
      rw [hl]
      exact List.forall₂_same.2 fun l _ => Layer.Same.refl l)
  refine ⟨g.withJunctions js, by unfold GroupInteraction.logRow; rw [t1]; rfl, h.length.trans t3.symm, h.blind, h.total, ?_⟩
  intro j hj
  obtain ⟨i, hi⟩ := List.getElem?_of_mem hj
  have hlt := (List.getElem?_eq_some_iff.1 hi).1
  change i < js.length at hlt
  obtain ⟨l1, -, l3⟩ := Out.traverse_ok _ t1
  obtain ⟨b, a', m1, m2, -⟩ := l3 i g.junctions[i] (List.getElem?_eq_getElem (by omega))
  have := t4 i _ b a' (List.getElem?_eq_getElem (by omega)) m1 m2
  change js[i]? = some j at hi
  rw [hi] at m2
  cases m2
  exact this

/-- helper -/
theorem Ready.loop {g : GroupInteraction ℝ} (h : Ready g) (r : Runner) (dt : ℝ) (we : Nat) (hw : we ≠ 0) (n i : Nat) :
    ∃ g', GroupInteraction.loop r dt we i n g = .ok () g' := by
  induction n generalizing i g with
  | zero => exact ⟨g, rfl⟩
  | succ n ih =>
    obtain ⟨m, h1, h2⟩ := h.step r (Scalar.lit (i : ℚ) * dt) dt
    by_cases hd : i % we = 0
    · obtain ⟨s, h3, h4⟩ := h2.logRow (Scalar.lit (i : ℚ) * dt)
      obtain ⟨g', h5⟩ := ih h4 (i + 1)
      exact ⟨g', loop_succ.2 ⟨m, s, h1, hw, fun _ => h3, fun hn => absurd hd hn, h5⟩⟩
    · obtain ⟨g', h5⟩ := ih h2 (i + 1)
      exact ⟨g', loop_succ.2 ⟨m, m, h1, hw, fun hn => absurd hn hd, fun _ => rfl, h5⟩⟩

/-- C39: a run of an accepted group completes for sensible members and times as soon as the interaction gives a field
for every pair. -/
theorem C39_completes (g : GroupInteraction ℝ) (hl : g.positions.length = g.junctions.length) (hne : g.junctions ≠ [])
    (hb : Blind g.interaction) (htot : Total g) (hr : ∀ j ∈ g.junctions, Reachable j)
    (hg : ∀ j ∈ g.junctions, ∀ l ∈ j.layers, l.Ms * l.thickness ≠ 0) (hq : ∀ j ∈ g.junctions, ∀ l ∈ j.layers, ¬ Noisy l)
    (hid : ∀ j ∈ g.junctions, ∃ l ∈ j.layers, l.id = g.topId) (total dt wf : ℝ) (hdt : 0 < dt) (ht : 0 ≤ total)
    (hT : total / dt < 2 ^ 31) (hle : dt ≤ wf) (hW : wf / dt < 2 ^ 31) : ∃ g', g.runSimulation total dt wf = .ok () g' := by
  have hcalm : ∀ j ∈ g.junctions, Stack.Calm j := fun j hj l hl => ⟨by simpa [Layer.Guard] using hg j hj l hl, hq j hj l hl⟩
  have hready : Ready g := ⟨hl, hb, htot, fun j hj => ⟨reachable_nonempty (hr j hj), hcalm j hj, (named_iff ..).2 (hid j hj),
    (Reachable_inv (hr j hj)).1⟩⟩
  have hfl : 1 ≤ ⌊wf / dt⌋₊ := by rw [Nat.one_le_floor_iff]; rwa [one_le_div hdt]
  obtain ⟨g', h⟩ := hready.loop ((g.junctions.map fun j => (pickRunner j.layers.length .RK4, SolverMode.RK4)).getLast (by simpa using hne)).1
    dt ⌊wf / dt⌋₊ (by omega) ⌊total / dt⌋₊ 0
  refine ⟨g', run_of (m := .RK4) (Stack.cast_floor (div_nonneg (hdt.le.trans hle) hdt.le) hW)
    (Stack.cast_floor (div_nonneg ht hdt.le) hT) (by simpa using hle) (Stack.solvers_completes _ _ hcalm) ?_ ?_ h⟩
  · intro x hx
    obtain ⟨j, -, rfl⟩ := List.mem_map.1 hx
    rfl
  · rw [List.getLast?_eq_some_getLast (by simpa using hne)]
    congr 1
    refine Prod.ext rfl ?_
    obtain ⟨j, -, he⟩ := List.mem_map.1 (List.getLast_mem (l := g.junctions.map fun j => (pickRunner j.layers.length .RK4, SolverMode.RK4))
      (by simpa using hne))
    rw [← he]

/-- C39: positions that differ are accepted, but with a dipole interaction no step succeeds unless every two members are
at least 0.1 nm apart, and for such members the interaction is defined for every pair. -/
theorem C39_apart (g : GroupInteraction ℝ) (hf : g.interaction = Dipole.compute ∨ g.interaction = Dipole.noumra) :
    (∀ r t dt g', g.step r t dt = .ok () g' → ∀ (i k : Nat) (ri rk : CVec ℝ), i ≠ k → i < g.junctions.length → k < g.junctions.length →
      g.positions[i]? = some ri → g.positions[k]? = some rk → Apart ri rk) ∧
    ((∀ (i k : Nat) (ri rk : CVec ℝ), i ≠ k → g.positions[i]? = some ri → g.positions[k]? = some rk → Apart ri rk) → Total g) := by
  have hlike : ∃ c, Dipole.DipoleLike g.interaction c := by
    rcases hf with h | h
    · rw [h]; exact ⟨_, Dipole.compute_like⟩
    · rw [h]; exact ⟨_, Dipole.noumra_like⟩
  have hb : Blind g.interaction := by
    rcases hf with h | h
    · rw [h]; exact C39_blind.2.1
    · rw [h]; exact C39_blind.2.2
  obtain ⟨c, hc⟩ := hlike
  constructor
  · intro r t dt g' h i k ri rk hik hi hk hri hrk
    obtain ⟨js, -, -, h2⟩ := (C39_simultaneous g g' hb r t dt).1 h
    obtain ⟨v, a, j', ⟨F, f1, -⟩, -⟩ := h2 i _ (List.getElem?_eq_getElem hi)
    obtain ⟨ri', rk', li, lk, e1, e2, -, -, e5⟩ := f1 k hk (Ne.symm hik)
    rw [hri] at e1
    rw [hrk] at e2
    cases e1; cases e2
    by_contra hn
    rw [(hc ri rk li lk).2 hn] at e5
    cases e5
  · intro h i k ri rk hik hri hrk l l'
    exact ⟨_, (hc ri rk l l').1 (h i k ri rk hik hri hrk)⟩

/-! ### Groups with members of different kinds -/

/-- two members at the given positions -/
noncomputable def twoOf (f : Dipole.Interaction ℝ) (p q : CVec ℝ) (a b : Junction ℝ) : GroupInteraction ℝ :=
  { topId := "free", positions := [p, q], junctions := [a, b], interaction := f }

/-- helper -/
theorem apart_symm {p q : CVec ℝ} (h : Apart p q) : Apart q p := by unfold Apart at h ⊢; rw [Dipole.away_swap]; exact h

/-- helper -/
theorem twoOf_apart (f : Dipole.Interaction ℝ) {p q : CVec ℝ} (h : Apart p q) (a b : Junction ℝ) : ∀ (i k : Nat) (ri rk : CVec ℝ),
    i ≠ k → (twoOf f p q a b).positions[i]? = some ri → (twoOf f p q a b).positions[k]? = some rk → Apart ri rk := by
  intro i k ri rk hik hi hk
  have h1 : i < 2 := (List.getElem?_eq_some_iff.1 hi).1
  have h2 : k < 2 := (List.getElem?_eq_some_iff.1 hk).1
  interval_cases i <;> interval_cases k
  · exact absurd rfl hik
  · cases hi; cases hk; exact h
  · cases hi; cases hk; exact apart_symm h
  · exact absurd rfl hik

/-- helper -/
theorem twoOf_completes (f : Dipole.Interaction ℝ) (p q : CVec ℝ)
    (hf : f = Dipole.null ∨ (f = Dipole.compute ∨ f = Dipole.noumra) ∧ Apart p q) (a b : Junction ℝ)
    (ha : a = Stack.oneJ ∨ a = Stack.pairJ) (hb : b = Stack.oneJ ∨ b = Stack.pairJ) :
    ∃ g', (twoOf f p q a b).runSimulation 1 1 1 = .ok () g' := by
  have hm : ∀ j ∈ (twoOf f p q a b).junctions, j = Stack.oneJ ∨ j = Stack.pairJ := by
    intro j hj
    simp only [twoOf, List.mem_cons, List.not_mem_nil, or_false] at hj
    rcases hj with rfl | rfl <;> assumption
  refine C39_completes _ rfl (by simp [twoOf]) ?_ ?_ ?_ (fun j hj l hl => (Stack.layers_fine (hm j hj) l hl).1)
    (fun j hj l hl => (Stack.layers_fine (hm j hj) l hl).2) ?_ 1 1 1 (by norm_num) (by norm_num) (by norm_num) (by norm_num) (by norm_num)
  · change Blind f
    rcases hf with rfl | ⟨rfl | rfl, -⟩
    exacts [C39_blind.1, C39_blind.2.1, C39_blind.2.2]
  · rcases hf with rfl | ⟨hf, hap⟩
    · intro i k ri rk _ _ _ l l'; exact ⟨_, rfl⟩
    · exact (C39_apart _ hf).2 (twoOf_apart _ hap a b)
  · intro j hj
    rcases hm j hj with rfl | rfl
    exacts [Stack.oneJ_reachable, Stack.pairJ_reachable]
  · intro j hj
    exact (named_iff ..).1 (by rw [show (twoOf f p q a b).topId = "free" from rfl, Stack.top_named (hm j hj)]; rfl)

/-- helper: what happens to a two-layer member that shares a group with a one-layer member -/
theorem mixed_runs (p q : CVec ℝ) :
    (∃ g' j', (twoOf Dipole.null p q Stack.pairJ Stack.oneJ).runSimulation 1 1 1 = .ok () g' ∧ g'.junctions[0]? = some j' ∧
      (⟨2, 0, 0⟩ : CVec ℝ) ∈ j'.layers.map Layer.mag) ∧
    (∃ g' j', (twoOf Dipole.null p q Stack.oneJ Stack.pairJ).runSimulation 1 1 1 = .ok () g' ∧ g'.junctions[1]? = some j' ∧
      ∃ b, Stack.pairJ.runSimulation 1 1 1 false .RK4 = .ok () b ∧ j'.layers.map Layer.mag = b.layers.map Layer.mag) ∧
    ∃ b, Stack.pairJ.runSimulation 1 1 1 false .RK4 = .ok () b ∧ (⟨2, 0, 0⟩ : CVec ℝ) ∉ b.layers.map Layer.mag := by
  have hq : ∀ j, j = Stack.oneJ ∨ j = Stack.pairJ → Stack.Calm j := fun j hj l hl =>
    ⟨by simpa [Layer.Guard] using (Stack.layers_fine hj l hl).1, (Stack.layers_fine hj l hl).2⟩
  have hz : ∀ j, j = Stack.oneJ ∨ j = Stack.pairJ → rest "free" j = j := by
    intro j hj
    refine rest_fix fun l hl _ => ?_
    rcases hj with rfl | rfl
    · simp [Stack.oneJ] at hl; subst hl; rfl
    · simp [Stack.pairJ] at hl; rcases hl with rfl | rfl <;> rfl
  have key : ∀ (a b : Junction ℝ) (g' : GroupInteraction ℝ), (a = Stack.oneJ ∨ a = Stack.pairJ) → (b = Stack.oneJ ∨ b = Stack.pairJ) →
      (twoOf Dipole.null p q a b).runSimulation 1 1 1 = .ok () g' → ∀ (n : Nat) (j : Junction ℝ), [a, b][n]? = some j →
      ∃ j', g'.junctions[n]? = some j' ∧ runLoop (pickRunner b.layers.length .RK4) 1 1 false 0 1 j = .ok () (rest "free" j') := by
    intro a b g' ha hb h n j hj
    obtain ⟨we, N, rms, js, r, m, h1, h2, -, h4, -, h6, h7⟩ := run_inv h
    rw [Stack.cast_unit] at h1 h2
    cases h1; cases h2
    rw [Stack.solvers_completes 1 _ (by
      intro x hx
      simp only [twoOf, List.mem_cons, List.not_mem_nil, or_false] at hx
      rcases hx with rfl | rfl
      exacts [hq _ ha, hq _ hb])] at h4
    simp only [Out.ok, Out.mk.injEq, Except.ok.injEq] at h4
    obtain ⟨rfl, rfl⟩ := h4
    have hr : r = pickRunner b.layers.length .RK4 := by
      simp [twoOf] at h6
      exact h6.1.symm
    subst hr
    obtain ⟨j', i1, i2⟩ := loop_quiet (g := (twoOf Dipole.null p q a b).withJunctions (twoOf Dipole.null p q a b).junctions) rfl h7 n j hj
    change runLoop _ 1 1 false 0 1 (rest "free" j) = .ok () (rest "free" j') at i2
    have hj2 : j = Stack.oneJ ∨ j = Stack.pairJ := by
      have := List.mem_of_getElem? hj
      simp only [List.mem_cons, List.not_mem_nil, or_false] at this
      rcases this with rfl | rfl <;> assumption
    rw [hz j hj2] at i2
    exact ⟨j', i1, i2⟩
  have hmag : ∀ j : Junction ℝ, (rest "free" j).layers.map Layer.mag = j.layers.map Layer.mag := by
    intro j
    unfold rest mapAddressed
    rw [List.map_map]
    refine List.map_congr_left fun l _ => ?_
    simp only [Function.comp]
    split <;> rfl
  obtain ⟨b, hb⟩ := C27_completes Stack.pairJ Stack.pairJ_reachable (fun l hl => (Stack.layers_fine (.inr rfl) l hl).1)
    (fun l hl => (Stack.layers_fine (.inr rfl) l hl).2) 1 1 1 false .RK4 (by norm_num) (by norm_num) (by norm_num) le_rfl (by norm_num)
  have hb' : runLoop .multi 1 1 false 0 1 Stack.pairJ = .ok () b := by
    unfold Junction.runSimulation at hb
    rw [if_neg (by simp), toUInt_unit] at hb
    dsimp only at hb
    rw [solver_quiet Stack.pairJ (fun l hl => (Stack.layers_fine (.inr rfl) l hl).2)] at hb
    exact hb
  refine ⟨?_, ?_, b, hb, ?_⟩
  · obtain ⟨g', hg⟩ := twoOf_completes Dipole.null p q (.inl rfl) Stack.pairJ Stack.oneJ (.inr rfl) (.inl rfl)
    obtain ⟨j', i1, i2⟩ := key _ _ g' (.inr rfl) (.inl rfl) hg 0 Stack.pairJ rfl
    refine ⟨g', j', hg, i1, ?_⟩
    rw [← hmag]
    obtain ⟨k, hk1, hk2⟩ := runLoop_evolve _ 1 1 false (k := Stack.pairJ) i2 rfl
    unfold evolve at hk1
    obtain ⟨_, k1, e1, e2⟩ := Out.bind_eq_ok hk1
    obtain ⟨a', ha'⟩ := Stack.single_second (a := quietLayer) (b := Stack.longLayer) rfl e1
    unfold evolve at e2
    simp only [Out.ok, Out.mk.injEq, true_and] at e2
    subst e2
    rw [hk2, ha']
    simp [Stack.longLayer]
  · obtain ⟨g', hg⟩ := twoOf_completes Dipole.null p q (.inl rfl) Stack.oneJ Stack.pairJ (.inl rfl) (.inr rfl)
    obtain ⟨j', i1, i2⟩ := key _ _ g' (.inl rfl) (.inr rfl) hg 1 Stack.pairJ rfl
    refine ⟨g', j', hg, i1, b, hb, ?_⟩
    change runLoop .multi 1 1 false 0 1 Stack.pairJ = _ at i2
    rw [hb'] at i2
    simp only [Out.ok, Out.mk.injEq, true_and] at i2
    rw [i2, hmag]
  · intro h2
    obtain ⟨l, hl, hl2⟩ := List.mem_map.1 h2
    have hu := C16_run Stack.pairJ b 1 1 1 false .RK4 (by norm_num) le_rfl hb l hl
    rw [hl2] at hu
    rcases hu with hu | hu
    · simp [CVec.length] at hu
    · have := congrArg CVec.x hu
      norm_num at this

/-- C39 fails when the members have different numbers of layers: every member is stepped with the solver chosen for the
last one. A two-layer junction before a one-layer junction keeps its unnormalised bottom layer; listed the other way
round, it does not. -/
theorem C39_order_refuted : ∃ (g g2 g' g2' : GroupInteraction ℝ) (e : Nat → Nat), g.interaction = Dipole.null ∧
    (∀ j ∈ g.junctions, Reachable j) ∧ Shuffles e g.junctions.length ∧ Reordered e g g2 ∧ g.runSimulation 1 1 1 = .ok () g' ∧
    g2.runSimulation 1 1 1 = .ok () g2' ∧ ¬ Reordered e g' g2' := by
  obtain ⟨⟨g1, j1, a1, a2, a3⟩, -, -⟩ := mixed_runs ⟨0, 0, 0⟩ ⟨1, 0, 0⟩
  obtain ⟨-, ⟨g2, j2, b1, b2, b, hb1, hb2⟩, b', c1, c2⟩ := mixed_runs ⟨1, 0, 0⟩ ⟨0, 0, 0⟩
  have hbb : b' = b := by
    rw [c1] at hb1
    simpa only [Out.ok, Out.mk.injEq, true_and] using hb1
  subst hbb
  refine ⟨twoOf Dipole.null ⟨0, 0, 0⟩ ⟨1, 0, 0⟩ Stack.pairJ Stack.oneJ, twoOf Dipole.null ⟨1, 0, 0⟩ ⟨0, 0, 0⟩ Stack.oneJ Stack.pairJ, g1, g2, fun i => 1 - i, rfl, ?_, ⟨?_, ?_⟩, ⟨rfl, rfl, rfl, ?_, ?_⟩, a1, b1, ?_⟩
  · intro j hj
    simp only [twoOf, List.mem_cons, List.not_mem_nil, or_false] at hj
    rcases hj with rfl | rfl
    exacts [Stack.pairJ_reachable, Stack.oneJ_reachable]
  · intro i hi
    change 1 - i < 2
    omega
  · intro i hi k hk hik
    have hi : i < 2 := hi
    have hk : k < 2 := hk
    dsimp only at hik
    omega
  · intro i hi
    have hi : i < 2 := hi
    interval_cases i <;> rfl
  · intro i hi
    have hi : i < 2 := hi
    interval_cases i <;> rfl
  · intro h
    have hl : 1 < g2.junctions.length := (List.getElem?_eq_some_iff.1 b2).1
    have := h.members 1 (by rw [← h.length]; exact hl)
    rw [b2, a2] at this
    cases this
    rw [hb2] at a3
    exact c2 a3

/-- C40 fails in the same way: the two-layer junction listed before a one-layer junction does not follow the run it makes
alone. -/
theorem C40_mixed_refuted : ∃ (g g' : GroupInteraction ℝ) (j j' b : Junction ℝ), g.interaction = Dipole.null ∧
    (∀ j ∈ g.junctions, Reachable j) ∧ g.runSimulation 1 1 1 = .ok () g' ∧ g.junctions[0]? = some j ∧ g'.junctions[0]? = some j' ∧
    (∀ l ∈ j.layers, l.HreservedDriver = .null) ∧ j.runSimulation 1 1 1 false .RK4 = .ok () b ∧
    j'.layers.map Layer.mag ≠ b.layers.map Layer.mag := by
  obtain ⟨⟨g1, j1, a1, a2, a3⟩, -, b, c1, c2⟩ := mixed_runs ⟨0, 0, 0⟩ ⟨1, 0, 0⟩
  refine ⟨_, g1, Stack.pairJ, j1, b, rfl, ?_, a1, rfl, a2, ?_, c1, fun h => c2 (h ▸ a3)⟩
  · intro j hj
    simp only [twoOf, List.mem_cons, List.not_mem_nil, or_false] at hj
    rcases hj with rfl | rfl
    exacts [Stack.pairJ_reachable, Stack.oneJ_reachable]
  · intro l hl
    simp [Stack.pairJ] at hl
    rcases hl with rfl | rfl <;> rfl

/-- the hypotheses of C39 and C40 are met: two members 1 m apart, each of the three interactions, in both orders -/
example (f : Dipole.Interaction ℝ) (hf : f = Dipole.null ∨ f = Dipole.compute ∨ f = Dipole.noumra) :
    ∃ g g2 g' : GroupInteraction ℝ, g.interaction = f ∧ Blind f ∧ Shuffles (fun i => 1 - i) g.junctions.length ∧
      Reordered (fun i => 1 - i) g g2 ∧ (∀ j ∈ g.junctions, j.layers.length = 2) ∧ g.runSimulation 1 1 1 = .ok () g' ∧
      (∀ j ∈ g.junctions, ∀ l ∈ j.layers, l.HreservedDriver = .null) := by
  have hap : Apart (⟨0, 0, 0⟩ : CVec ℝ) ⟨1, 0, 0⟩ := by unfold Apart away; norm_num
  obtain ⟨g', hg⟩ := twoOf_completes f ⟨0, 0, 0⟩ ⟨1, 0, 0⟩ (by
    rcases hf with h | h
    · exact .inl h
    · exact .inr ⟨h, hap⟩) Stack.pairJ Stack.pairJ (.inr rfl) (.inr rfl)
  refine ⟨twoOf f ⟨0, 0, 0⟩ ⟨1, 0, 0⟩ Stack.pairJ Stack.pairJ, twoOf f ⟨1, 0, 0⟩ ⟨0, 0, 0⟩ Stack.pairJ Stack.pairJ, g', rfl, ?_, ⟨?_, ?_⟩,
    ⟨rfl, rfl, rfl, ?_, ?_⟩, ?_, hg, ?_⟩
  · rcases hf with rfl | rfl | rfl
    exacts [C39_blind.1, C39_blind.2.1, C39_blind.2.2]
  · intro i hi
    change 1 - i < 2
    omega
  · intro i hi k hk hik
    have hi : i < 2 := hi
    have hk : k < 2 := hk
    dsimp only at hik
    omega
  · intro i hi
    have hi : i < 2 := hi
    interval_cases i <;> rfl
  · intro i hi
    have hi : i < 2 := hi
    interval_cases i <;> rfl
  · intro j hj
    simp [twoOf] at hj
    subst hj; rfl
  · intro j hj l hl
    simp [twoOf] at hj
    subst hj
    simp [Stack.pairJ] at hl
    rcases hl with rfl | rfl <;> rfl

end GroupInteraction
