import Verif.Props.StackCurrents
import Verif.Props.UnitLength

/-! # C37: stacks without coupling -/

set_option linter.unusedSectionVars false

namespace Junction
open Spec Layer

/-- helper -/
theorem solverLoop_carry {T : Type} [Scalar T] (d : ScalarDriver T) (n : Nat) (mode : SolverMode) (ls : List (Layer T)) :
    solverLoop n mode (ls.map (·.setCurrentDriver d)) =
      ⟨(solverLoop n mode ls).res, (solverLoop n mode ls).st.map (·.setCurrentDriver d)⟩ := by
  induction ls generalizing mode with
  | nil => rfl
  | cons l ls ih =>
    rw [List.map_cons]
    unfold solverLoop
    dsimp only
    rw [show (l.setCurrentDriver d).temperatureSet = l.temperatureSet from rfl,
      show (l.setCurrentDriver d).noiseParams = l.noiseParams from rfl]
    split
    · rw [ih]
      generalize solverLoop n (if l.temperatureSet = true then noisyMode mode else mode) ls = x
      rcases x with ⟨r, x⟩; rfl
    · have hc : (l.setCurrentDriver d).createBufferedAlphaNoise n =
          ⟨(l.createBufferedAlphaNoise n).res, (l.createBufferedAlphaNoise n).st.setCurrentDriver d⟩ := by
        unfold createBufferedAlphaNoise
        rw [show (l.setCurrentDriver d).noiseParams = l.noiseParams from rfl]
        split
        · rfl
        · rw [show (l.setCurrentDriver d).alphaSrc = l.alphaSrc from rfl, show (l.setCurrentDriver d).bfnCount = l.bfnCount from rfl]
          split <;> rfl
      rw [hc]
      rcases l.createBufferedAlphaNoise n with ⟨_ | _, l'⟩
      · rfl
      · dsimp only
        rw [ih]
        generalize solverLoop n (noisyMode (if l.temperatureSet = true then noisyMode mode else mode)) ls = x
        rcases x with ⟨r, x⟩; rfl

/-- helper -/
theorem getSolver_carry {T : Type} [Scalar T] (d : ScalarDriver T) (j : Junction T) (mode : SolverMode) (n : Nat)
    {rm : Runner × SolverMode} {j1 : Junction T} (h : j.getSolver mode n = .ok rm j1) :
    (j.carry d).getSolver mode n = .ok rm (j1.carry d) ∧ rm.1 = pickRunner j.layers.length rm.2 := by
  unfold getSolver at h ⊢
  rw [show (j.carry d).layers = j.layers.map (·.setCurrentDriver d) from rfl, solverLoop_carry]
  rcases hs : solverLoop n mode j.layers with ⟨_ | m, ls⟩
  · rw [hs] at h; simp [Out.ok, Out.fail] at h
  · rw [hs] at h
    simp only [Out.ok, Out.mk.injEq, Except.ok.injEq] at h
    obtain ⟨rfl, rfl⟩ := h
    refine ⟨?_, rfl⟩
    dsimp only
    unfold layerNo
    rw [carry_len]
    rfl

end Junction

namespace Stack
open Spec Junction Layer

/-- helper -/
theorem factor_one {s : Stack ℝ} (hz : ∀ k, gap s k = 0) {fr : List (CVec ℝ × CVec ℝ)} {i : Nat} {p j : Junction ℝ} {f : ℝ}
    (h : s.couplingFactor fr i (some p) j = .ok f) : f = 1 := by
  unfold couplingFactor at h
  dsimp only at h
  split at h
  · split at h
    · split at h
      · cases h
      · rename_i x hx
        cases h
        rw [effective_spec hx, hz]; simp [Scalar.ofNat_real]
    · cases h
  · split at h
    · split at h
      · cases h
      · rename_i x hx
        cases h
        rw [effective_spec hx, hz]; simp [Scalar.ofNat_real]
    · cases h

/-- helper: one step of a member -/
theorem step_alone {s s' : Stack ℝ} {r : Runner} {two : Bool} {t dt : ℝ} {vs : List (ℝ × ℝ)} (h : s.step r two t dt = .ok vs s')
    (hz : ∀ k, gap s k = 0) (q : Nat) (j : Junction ℝ) (hj : s.junctions[q]? = some j) :
    ∃ j', s'.junctions[q]? = some j' ∧ (j.carry (scaled s.currentDriver 1 (phaseOf s q))).runStep r t dt = .ok () j' ∧
      j'.carry (scaled s.currentDriver 1 (phaseOf s q)) = j' := by
  obtain ⟨fr, js, h1, h2, rfl⟩ := step_ok h
  obtain ⟨l1, l2, e, a1, a2, -, a4⟩ := junctionLoop_ok h2
  have hq : q < s.junctions.length := (List.getElem?_eq_some_iff.1 hj).1
  have he : e q = 1 := by
    rw [product_of e (fun _ => 1) s.junctions.length ?_ ?_ q hq]
    · simp
    · rw [a2 s.junctions[0] (List.getElem?_eq_getElem (by omega)) rfl]; simp [Scalar.ofNat_real]
    · intro k hk
      have hk2 : k < js.length := by omega
      obtain ⟨x, b1, b2⟩ := a4 k js[k] s.junctions[k + 1] (List.getElem?_eq_getElem hk2) (List.getElem?_eq_getElem hk)
      rw [b2, factor_one hz b1]
  obtain ⟨v, j', c1, c2, c3⟩ := a1 q j hj
  rw [Nat.zero_add, he] at c3
  obtain ⟨d, rest, d1, d2, d3, -, -⟩ := stepJunction_ok c3
  rw [mul_ok d1, phase_spec] at d3
  refine ⟨j', c2, d3, carry_fix _ _ ?_⟩
  have := carry_step (scaled s.currentDriver 1 (phaseOf s q)) _ r t dt (carry_mem _ j)
  rw [d3] at this
  exact this

/-- helper -/
theorem loop_alone {r : Runner} {two : Bool} {dt : ℝ} {we n i : Nat} {s s' : Stack ℝ} (h : loop r two dt we i n s = .ok () s')
    (hz : ∀ k, gap s k = 0) (q : Nat) (j : Junction ℝ) (hj : s.junctions[q]? = some j) :
    ∃ j', s'.junctions[q]? = some j' ∧ runLoop r dt we false i n (j.carry (scaled s.currentDriver 1 (phaseOf s q))) =
      .ok () (j'.carry (scaled s.currentDriver 1 (phaseOf s q))) := by
  induction n generalizing i s j with
  | zero =>
    simp only [loop, Out.ok, Out.mk.injEq, true_and] at h
    subst h
    exact ⟨j, hj, rfl⟩
  | succ n ih =>
    unfold loop at h
    obtain ⟨v, m, h1, h2⟩ := Out.bind_eq_ok h
    obtain ⟨j1, e1, e2, e3⟩ := step_alone h1 hz q j hj
    have f1 : Frame s m := by
      have := (step_kept kept_params s r two (Scalar.lit (i : ℚ) * dt) dt).1
      rw [h1] at this; exact this
    unfold runLoop
    dsimp only
    rw [e2]
    simp only [Out.bind_ok]
    split at h2
    · simp [Out.ok, Out.fail] at h2
    · rename_i hw
      rw [if_neg hw]
      split at h2
      · rename_i hd
        rw [if_pos hd]
        obtain ⟨_, s1, h3, h4⟩ := Out.bind_eq_ok h2
        obtain ⟨g1, -, -, g4⟩ := logRow_ok h3
        obtain ⟨j2, k1, k2⟩ := g4 q j1 e1
        have f2 : Frame s s1 := f1.trans g1
        obtain ⟨j', i1, i2⟩ := ih h4 (fun k => (gap_frame f2 k).trans (hz k)) j2 k1
        rw [phase_frame f2, f2.2.2.2.2.2.2] at i2
        refine ⟨j', i1, ?_⟩
        rw [k2, Out.bind_ok]
        have : j2.carry (scaled s.currentDriver 1 (phaseOf s q)) = j2 := by
          refine carry_fix _ _ ?_
          rw [log_mags k2, ← e3]
          exact carry_mem _ _
        rw [this] at i2
        exact i2
      · rename_i hd
        rw [if_neg hd]
        obtain ⟨j', i1, i2⟩ := ih h2 (fun k => (gap_frame f1 k).trans (hz k)) j1 e1
        rw [phase_frame f1, f1.2.2.2.2.2.2, e3] at i2
        exact ⟨j', i1, i2⟩

/-- helper -/
theorem cast_toUInt {q : ℝ} {n : Nat} (h : castUnsigned q = some n) (hq : 0 ≤ q) : Scalar.toUInt q = some n := by
  unfold castUnsigned at h
  simp only [Scalar.toInt, Scalar.toUInt] at h ⊢
  split at h
  · rename_i hr
    simp only [Option.map_some, Option.some.injEq] at h
    rw [if_pos ⟨by linarith, by linarith [hr.2]⟩]
    unfold Scalar.truncR at h ⊢
    rw [if_pos hq] at h ⊢
    congr 1
    rw [← h, Int.emod_eq_of_lt (Int.floor_nonneg.2 hq)]
    have : ⌊q⌋ < 2147483648 := Int.floor_lt.2 (by exact_mod_cast hr.2)
    omega
  · simp at h

/-- helper -/
theorem zero_gaps {s : Stack ℝ} (h : ∀ c ∈ s.couplingStrength, c = 0) (k : Nat) : gap s k = 0 := by
  unfold gap
  rw [List.getD_eq_getElem?_getD]
  cases hx : s.couplingStrength[if s.couplingStrength.length = 1 then 0 else k]? with
  | none => simp [Scalar.ofNat_real]
  | some c => exact h c (List.mem_of_getElem? hx)

/-- C37: without coupling, a successful run of a stack whose members have equally many layers takes each member through
exactly the run it makes alone once the stack's current, shifted in phase, is set on all its layers: same
magnetisations, same log. (Two members of different kinds: see `C37_mixed_refuted`.) -/
theorem C37_independent_partial (s s' : Stack ℝ) (hr : StackReachable s) (hc : ∀ c ∈ s.couplingStrength, c = 0) (L : Nat)
    (hL : ∀ j ∈ s.junctions, j.layers.length = L) (total dt wf : ℝ) (hdt : 0 < dt) (ht : 0 ≤ total)
    (h : s.runSimulation total dt wf = .ok () s') (q : Nat) (j : Junction ℝ) (hj : s.junctions[q]? = some j) :
    ∃ j' a b, s'.junctions[q]? = some j' ∧
      j.setLayerCurrentDriver "all" { s.currentDriver with phase := s.currentDriver.phase + phaseOf s q } = .ok () a ∧
      a.runSimulation total dt wf false .RK4 = .ok () b ∧
      j'.layers.map Layer.mag = b.layers.map Layer.mag ∧ j'.log = b.log ∧ j'.logLength = b.logLength := by
  have hz := zero_gaps hc
  obtain ⟨we, N, rms, js, two, r, m, h1, h2, h3, h4, h5, h6, h7, h8⟩ := Stack.run_inv h
  have hv := reachable_valid hr
  have hd : ({ s.currentDriver with phase := s.currentDriver.phase + phaseOf s q } : ScalarDriver ℝ) =
      scaled s.currentDriver 1 (phaseOf s q) := by unfold scaled; simp
  have hne : j.layers ≠ [] := by
    intro h0
    have := hv.layers j (List.mem_of_getElem? hj)
    rw [h0] at this; simp at this
  obtain ⟨l1, l2, h9⟩ := Out.traverse_ok _ h4
  obtain ⟨rm, j1, k1, k2, k3⟩ := h9 q j hj
  obtain ⟨c1, c2⟩ := getSolver_carry (scaled s.currentDriver 1 (phaseOf s q)) j .RK4 N k3
  have hrun : rm.1 = r := by
    have hm := h5 rm (List.mem_of_getElem? k1)
    have hlast : rms[rms.length - 1]? = some (r, m) := by rw [← List.getLast?_eq_getElem?]; exact h6
    have hpos : rms.length - 1 < s.junctions.length := by
      have := hv.two; omega
    obtain ⟨rm', j2, b1, b2, b3⟩ := h9 (rms.length - 1) s.junctions[rms.length - 1] (List.getElem?_eq_getElem hpos)
    rw [hlast] at b1
    cases b1
    obtain ⟨-, c3⟩ := getSolver_carry (scaled s.currentDriver 1 (phaseOf s q)) _ .RK4 N b3
    dsimp only at c3
    rw [c2, c3, hL j (List.mem_of_getElem? hj), hL _ (List.getElem_mem hpos), hm]
  obtain ⟨j', i1, i2⟩ := loop_alone (s := s.withJunctions js) h8 hz q j1 k2
  refine ⟨j', _, j'.carry (scaled s.currentDriver 1 (phaseOf s q)), i1, by rw [hd]; exact setCurrent_all _ j hne, ?_, ?_, rfl, rfl⟩
  · unfold Junction.runSimulation
    have hwd : dt ≤ wf := by simpa using h3
    rw [h3, cast_toUInt h1 (div_nonneg (hdt.le.trans hwd) hdt.le), cast_toUInt h2 (div_nonneg ht hdt.le)]
    simp only [Bool.false_eq_true, if_false]
    rw [c1, Out.bind_ok, hrun]
    exact i2
  · simp [carry, Layer.setCurrentDriver]

end Stack
