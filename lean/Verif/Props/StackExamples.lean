import Verif.Props.StackRuns
import Verif.Props.Logs

/-! # C37 for mixed stacks, and concrete stacks for C34–C37 -/

set_option linter.unusedSectionVars false

namespace Stack
open Spec Junction Layer

/-- a bottom layer built with a magnetisation of length two, which the constructor keeps (C17) -/
noncomputable def longLayer : Layer ℝ := { quietLayer with id := "bottom", mag := ⟨2, 0, 0⟩ }

/-- one layer and a reference -/
noncomputable def oneJ : Junction ℝ := { demoJ with layers := [quietLayer], Rp := 1, Rap := 2, mrMode := .CLASSIC }

/-- two layers -/
noncomputable def pairJ : Junction ℝ :=
  { demoJ with layers := [quietLayer, longLayer], Rp := 1, Rap := 2, mrMode := .CLASSIC, Rtag := "R_free_bottom" }

/-- helper -/
theorem oneJ_reachable : Reachable oneJ := by
  refine ⟨oneJ, [], .inr (.inl ⟨[quietLayer], 1, 2, ?_⟩), rfl⟩
  unfold classic
  simp only [Junction.plain, List.length_singleton]
  have : quietLayer.referenceLayer = ⟨0, 1, 0⟩ := rfl
  rw [if_neg (by norm_num), this]
  simp [oneJ, demoJ, CVec.length]

/-- helper -/
theorem pairJ_reachable : Reachable pairJ := by
  refine ⟨pairJ, [], .inr (.inl ⟨[quietLayer, longLayer], 1, 2, ?_⟩), rfl⟩
  unfold classic
  simp only [Junction.plain, List.length_cons, List.length_nil]
  simp [pairJ, demoJ, quietLayer, longLayer, plainOf, Layer.demo]

/-- a stack of the given junctions without coupling and with the null current -/
noncomputable def stackOf (kind : StackKind) (js : List (Junction ℝ)) : Stack ℝ :=
  { kind := kind, topId := "free", bottomId := "bottom", phaseOffset := 0, couplingStrength := [0], delayed := true,
    currentDriver := .null, stackLog := [], junctions := js }

/-- helper -/
theorem stackOf_reachable (kind : StackKind) (js : List (Junction ℝ)) (h2 : 2 ≤ js.length)
    (h : ∀ j ∈ js, Reachable j ∧ j.mrMode = .CLASSIC) : StackReachable (stackOf kind js) := by
  refine ⟨kind, js, "free", "bottom", 0, stackOf kind js, [], fun j hj => (h j hj).1, ?_, rfl⟩
  unfold mk'
  rw [if_neg (by omega), if_neg]
  · simp [stackOf]
  · intro ha
    obtain ⟨j, hj, hn⟩ := List.any_eq_true.1 ha
    exact (by simpa using hn : j.mrMode ≠ .CLASSIC) (h j hj).2

/-- helper -/
theorem layers_fine {j : Junction ℝ} (h : j = oneJ ∨ j = pairJ) : ∀ l ∈ j.layers, l.Ms * l.thickness ≠ 0 ∧ ¬ Noisy l := by
  rcases h with rfl | rfl
  · simp [oneJ, quietLayer, plainOf, Layer.demo, Noisy]
  · simp [pairJ, quietLayer, longLayer, plainOf, Layer.demo, Noisy]

/-- helper -/
theorem top_named {j : Junction ℝ} (h : j = oneJ ∨ j = pairJ) : layerNamed "free" j = some quietLayer := by
  have hid : quietLayer.id = "free" := rfl
  rcases h with rfl | rfl
  · simp [layerNamed, oneJ, hid]
  · simp [layerNamed, pairJ, hid]

/-- helper: stacks of such junctions run -/
theorem stackOf_completes (kind : StackKind) (js : List (Junction ℝ)) (h2 : 2 ≤ js.length) (h : ∀ j ∈ js, j = oneJ ∨ j = pairJ)
    (c : List ℝ) (hc : c.length = 1) (d : ScalarDriver ℝ) (hd : d.update = .constant) :
    ∃ s', ({ stackOf kind js with couplingStrength := c, currentDriver := d } : Stack ℝ).runSimulation 1 1 1 = .ok () s' := by
  obtain ⟨c, rfl⟩ := List.length_eq_one_iff.1 hc
  have hreach : ∀ j ∈ js, Reachable j ∧ j.mrMode = .CLASSIC := fun j hj => by
    rcases h j hj with rfl | rfl
    · exact ⟨oneJ_reachable, rfl⟩
    · exact ⟨pairJ_reachable, rfl⟩
  set s : Stack ℝ := { stackOf kind js with couplingStrength := [c], currentDriver := d } with hs
  have hv : Valid s := ⟨h2, fun j hj => (hreach j hj).2, .inl rfl, fun j hj => by
    rcases h j hj with rfl | rfl
    · exact .inl rfl
    · exact .inr rfl⟩
  have hcalm : ∀ j ∈ s.junctions, Calm j := fun j hj l hl => ⟨by simpa [Guard] using (layers_fine (h j hj) l hl).1, (layers_fine (h j hj) l hl).2⟩
  obtain ⟨two, htwo⟩ := twoLayer_total s.junctions hv.layers
  have hpair : TwoLayers s → ∀ j ∈ js, j = pairJ := fun ht j hj => by
    rcases h j hj with rfl | h'
    · have := ht oneJ hj; simp [oneJ] at this
    · exact h'
  have hready : Ready s two := by
    refine ⟨hv.classic, hv.layers, hcalm, ?_, ?_, ?_, fun hd => (by cases hd), ?_, ?_⟩
    · intro j hj
      unfold refOf
      rw [show s.topId = "free" from rfl, top_named (h j hj)]; rfl
    · intro h3 j hj
      rw [h3] at htwo
      rw [hpair ((twoLayer_spec s).1 htwo) j hj]
      simp [refOf, layerNamed, pairJ, s, stackOf, quietLayer, longLayer, plainOf, Layer.demo]
    · intro _
      refine ⟨by intro h0; have := hv.two; rw [h0] at this; simp at this, quietLayer.referenceLayer, ?_, ?_⟩
      · intro h0
        have := congrArg CVec.y h0
        simp [quietLayer, plainOf, Layer.demo, CVec.zero] at this
      · intro j hj
        unfold refOf
        rw [show s.topId = "free" from rfl, top_named (h j hj)]; rfl
    · exact mul_completes d (by rw [hd]; intro h; cases h) (by rw [hd]; intro h; cases h)
    · intro k _
      exact ⟨c, rfl⟩
  exact run_of_ready s two htwo hready h2 1 1 1 (by norm_num) (by norm_num) (by norm_num) le_rfl (by norm_num)

/-- helper -/
theorem cast_unit : castUnsigned ((1 : ℝ) / 1) = some 1 := by rw [cast_floor (by norm_num) (by norm_num)]; simp

/-- helper: the single-layer runner leaves the second layer of a junction alone -/
theorem single_second {j k : Junction ℝ} {t dt : ℝ} {a b : Layer ℝ} (hj : j.layers = [a, b]) (h : j.runStep .single t dt = .ok () k) :
    ∃ a', k.layers = [a', b] := by
  unfold runStep runSingleLayerSolver at h
  dsimp only at h
  rw [hj] at h
  dsimp only at h
  generalize a.rk4Step t dt CVec.zero CVec.zero = x at h
  rcases x with ⟨r, a'⟩
  simp only [Out.ok, Out.mk.injEq] at h
  exact ⟨a', by rw [← h.2]⟩

/-- C37 fails when the members have different numbers of layers: the stack steps every junction with the solver chosen
for the last one. With a one-layer junction last, the bottom layer of a two-layer junction is never stepped: here it
keeps its initial length of two, while the same junction run alone normalises it. -/
theorem C37_mixed_refuted : ∃ (s s' : Stack ℝ) (j j' a b : Junction ℝ), StackReachable s ∧ (∀ c ∈ s.couplingStrength, c = 0) ∧
    s.runSimulation 1 1 1 = .ok () s' ∧ s.junctions[0]? = some j ∧ s'.junctions[0]? = some j' ∧
    j.setLayerCurrentDriver "all" { s.currentDriver with phase := s.currentDriver.phase + phaseOf s 0 } = .ok () a ∧
    a.runSimulation 1 1 1 false .RK4 = .ok () b ∧ j'.layers.map Layer.mag ≠ b.layers.map Layer.mag := by
  have hm : ∀ j ∈ [pairJ, oneJ], j = oneJ ∨ j = pairJ := by simp
  set s := stackOf .series [pairJ, oneJ] with hs
  have hreach : StackReachable s := stackOf_reachable .series [pairJ, oneJ] (by simp) (by
    simp only [List.mem_cons, List.not_mem_nil, or_false, forall_eq_or_imp, forall_eq]
    exact ⟨⟨pairJ_reachable, rfl⟩, oneJ_reachable, rfl⟩)
  obtain ⟨s', hrun⟩ := stackOf_completes .series [pairJ, oneJ] (by simp) hm [0] rfl .null rfl
  change s.runSimulation 1 1 1 = .ok () s' at hrun
  have hc : ∀ c ∈ s.couplingStrength, c = 0 := by simp [s, stackOf]
  have hd : ({ s.currentDriver with phase := s.currentDriver.phase + phaseOf s 0 } : ScalarDriver ℝ) =
      scaled s.currentDriver 1 (phaseOf s 0) := by unfold scaled; simp
  set d := scaled s.currentDriver 1 (phaseOf s 0) with hdd
  have hcalm : ∀ j ∈ s.junctions, Calm j := fun j hj l hl =>
    ⟨by simpa [Guard] using (layers_fine (hm j hj) l hl).1, (layers_fine (hm j hj) l hl).2⟩
  obtain ⟨we, N, rms, js, two, r, m, h1, h2, -, h4, -, h6, -, h8⟩ := Stack.run_inv hrun
  rw [cast_unit] at h1 h2
  cases h1; cases h2
  rw [solvers_completes 1 _ hcalm] at h4
  simp only [Out.ok, Out.mk.injEq, Except.ok.injEq] at h4
  obtain ⟨rfl, rfl⟩ := h4
  have hr : r = .single := by
    simp [s, stackOf, oneJ, pickRunner] at h6
    exact h6.1.symm
  subst hr
  obtain ⟨j', i1, i2⟩ := loop_alone (s := s.withJunctions s.junctions) h8 (zero_gaps hc) 0 pairJ rfl
  change runLoop .single 1 1 false 0 1 (pairJ.carry d) = .ok () (j'.carry d) at i2
  have hsecond : ∃ a', (j'.carry d).layers = [a', longLayer.setCurrentDriver d] := by
    obtain ⟨k, hk1, hk2⟩ := runLoop_evolve .single 1 1 false (k := pairJ.carry d) i2 rfl
    unfold evolve at hk1
    obtain ⟨_, k1, e1, e2⟩ := Out.bind_eq_ok hk1
    obtain ⟨a', ha'⟩ := single_second (a := quietLayer.setCurrentDriver d) (b := longLayer.setCurrentDriver d) rfl e1
    unfold evolve at e2
    simp only [Out.ok, Out.mk.injEq, true_and] at e2
    subst e2
    exact ⟨a', by rw [hk2]; exact ha'⟩
  have hset := setCurrent_all d pairJ (by simp [pairJ])
  have hra : Reachable (pairJ.carry d) := by
    obtain ⟨j0, cs, c1, c2⟩ := pairJ_reachable
    refine ⟨j0, cs ++ [.current "all" d], c1, ?_⟩
    unfold program at c2 ⊢
    rw [List.foldl_append, ← c2]
    change _ = (pairJ.setLayerCurrentDriver "all" d).st
    rw [hset]; rfl
  obtain ⟨b, hb⟩ := C27_completes (pairJ.carry d) hra
    (by simp [carry, pairJ, quietLayer, longLayer, plainOf, Layer.demo, setCurrentDriver])
    (by simp [carry, pairJ, quietLayer, longLayer, plainOf, Layer.demo, setCurrentDriver, Noisy])
    1 1 1 false .RK4 (by norm_num) (by norm_num) (by norm_num) le_rfl (by norm_num)
  refine ⟨s, s', pairJ, j', pairJ.carry d, b, hreach, hc, hrun, rfl, i1, by rw [hd]; exact hset, hb, ?_⟩
  intro he
  obtain ⟨a', ha'⟩ := hsecond
  have h2 : (⟨2, 0, 0⟩ : CVec ℝ) ∈ b.layers.map Layer.mag := by
    rw [← he]
    have : (j'.carry d).layers.map Layer.mag = j'.layers.map Layer.mag := by simp [carry, setCurrentDriver]
    rw [← this, ha']
    simp [longLayer, setCurrentDriver]
  obtain ⟨l, hl, hl2⟩ := List.mem_map.1 h2
  have hu := C16_run (pairJ.carry d) b 1 1 1 false .RK4 (by norm_num) le_rfl hb l hl
  rw [hl2] at hu
  rcases hu with hu | hu
  · simp [CVec.length] at hu
  · have := congrArg CVec.x hu
    norm_num at this

/-- the hypotheses of C37 and of the run theorems of C35 and C36 are met, also with a non-zero current -/
example (kind : StackKind) : ∃ s s' : Stack ℝ, StackReachable s ∧ (∀ c ∈ s.couplingStrength, c = 0) ∧
    (∀ j ∈ s.junctions, j.layers.length = 2) ∧ s.runSimulation 1 1 1 = .ok () s' := by
  obtain ⟨s', h⟩ := stackOf_completes kind [pairJ, pairJ] (by simp) (by simp) [0] rfl .null rfl
  refine ⟨stackOf kind [pairJ, pairJ], s', stackOf_reachable kind _ (by simp) (by simp [pairJ_reachable]; rfl), by simp [stackOf], ?_, h⟩
  simp [stackOf, pairJ]

example (kind : StackKind) : ∃ s s' : Stack ℝ, s.couplingStrength = [1 / 2] ∧ s.currentDriver = .constantDriver 3 ∧
    (∀ j ∈ s.junctions, j.mrMode = .CLASSIC) ∧ s.runSimulation 1 1 1 = .ok () s' := by
  obtain ⟨s', h⟩ := stackOf_completes kind [oneJ, oneJ] (by simp) (by simp) [1 / 2] rfl (.constantDriver 3) rfl
  exact ⟨_, s', rfl, rfl, by simp [stackOf, oneJ], h⟩

end Stack
