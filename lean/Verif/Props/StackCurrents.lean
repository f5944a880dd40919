import Verif.Props.Stacks
import Verif.Props.Drivers2

/-! # C35: currents in a stack -/

set_option linter.unusedSectionVars false

namespace Stack
open Spec Junction Layer

/-! ### Values -/

/-- helper -/
theorem effective_spec {s : Stack ℝ} {order : Nat} {m m' p : CVec ℝ} {x : ℝ}
    (h : s.getEffectiveCouplingStrength order m m' p = .ok x) : x = gap s order * alignment s.kind m m' p := by
  unfold getEffectiveCouplingStrength at h
  split at h
  · cases h
  · rename_i c hc
    rw [getCoupling_gap hc] at h
    unfold alignment
    split at h
    · rename_i hk; cases h; rw [hk]; rfl
    · rename_i hk; cases h; rw [hk]; rfl

/-- helper -/
theorem memberMag_of {s : Stack ℝ} {id : String} {k : Nat} {j : Junction ℝ} {m : CVec ℝ} (hj : s.junctions[k]? = some j)
    (h : j.getLayerMagnetisation id = .ok m) : memberMag s id k = m := by
  unfold memberMag
  rw [hj, Option.bind_some, (getMag_iff j id m).1 h]; rfl

/-- helper -/
theorem memberRef_of {s : Stack ℝ} {id : String} {k : Nat} {j : Junction ℝ} {l : Layer ℝ} (hj : s.junctions[k]? = some j)
    (h : j.getLayer id = .ok l) : memberRef s id k = l.referenceLayer := by
  unfold memberRef
  rw [hj, Option.bind_some, (getLayer_iff j id l).1 h]; rfl

/-- helper -/
theorem polarisationLoop_ok {id : String} {p : CVec ℝ} {js : List (Junction ℝ)} (h : polarisationLoop id p js = .ok ()) :
    ∀ j ∈ js, ∃ l, j.getLayer id = .ok l ∧ l.referenceLayer = p := by
  induction js with
  | nil => simp
  | cons j js ih =>
    unfold polarisationLoop at h
    split at h
    · cases h
    · rename_i l hl
      split at h
      · cases h
      · rename_i hne
        simp only [List.mem_cons, forall_eq_or_imp]
        refine ⟨⟨l, hl, ?_⟩, ih h⟩
        simp only [CVec.neqb, Bool.and_eq_true, Scalar.eqb_real, decide_eq_true_eq] at hne
        by_cases hc : (p.x = l.referenceLayer.x ∧ p.y = l.referenceLayer.y) ∧ p.z = l.referenceLayer.z
        · ext
          · exact hc.1.1.symm
          · exact hc.1.2.symm
          · exact hc.2.symm
        · rw [if_neg hc] at hne; exact absurd rfl hne

/-- C35: when the fixed references are used, all free layers have the same one and it is not the zero vector. -/
theorem C35_common_reference (s : Stack ℝ) (p : CVec ℝ) (h : s.getPolarisationVector = .ok p) :
    p ≠ ⟨0, 0, 0⟩ ∧ ∀ k < s.junctions.length, memberRef s s.topId k = p := by
  unfold getPolarisationVector at h
  split at h
  · cases h
  · rename_i j js hjs
    split at h
    · cases h
    · rename_i l hl
      split at h
      · cases h
      · rename_i hp
        split at h
        · cases h
        · rename_i hz
          cases h
          refine ⟨?_, fun k hk => ?_⟩
          · intro h0
            rw [h0] at hz
            exact hz (by simp [CVec.length])
          · rw [hjs] at hk
            cases k with
            | zero => exact memberRef_of (by rw [hjs]; rfl) hl
            | succ k =>
              have hk' : k < js.length := by simpa using hk
              obtain ⟨l', h1, h2⟩ := polarisationLoop_ok hp js[k] (List.getElem_mem hk')
              rw [← h2]
              exact memberRef_of (by rw [hjs, List.getElem?_cons_succ, List.getElem?_eq_getElem hk']) h1

/-- helper: the value frozen before the step -/
theorem frozen_spec {s : Stack ℝ} {two : Bool} {fr : List (CVec ℝ × CVec ℝ)} (ht : s.isTwoLayerMemberStack = .ok two)
    (h : s.freeze two = .ok fr) (k : Nat) (hk : k < s.junctions.length) :
    fr[k]? = some (memberMag s s.topId k, polariserAt s k) := by
  obtain ⟨-, h2⟩ := freeze_ok h
  obtain ⟨m, p, e1, e2, e3⟩ := h2 k _ (List.getElem?_eq_getElem hk)
  rw [e1, memberMag_of (List.getElem?_eq_getElem hk) e2]
  congr 2
  unfold polariserAt
  cases two with
  | true =>
    rw [if_pos ((twoLayer_spec s).1 ht)]
    exact (memberMag_of (List.getElem?_eq_getElem hk) e3).symm
  | false =>
    rw [if_neg (fun hn => by rw [(twoLayer_spec s).2 hn] at ht; cases ht)]
    exact ((C35_common_reference s p e3).2 k hk).symm

/-- helper -/
theorem factor_delayed {s : Stack ℝ} {two : Bool} {fr : List (CVec ℝ × CVec ℝ)} (ht : s.isTwoLayerMemberStack = .ok two)
    (hf : s.freeze two = .ok fr) (hd : s.delayed = true) {k : Nat} {p j : Junction ℝ} {f : ℝ} (hk : k + 1 < s.junctions.length)
    (h : s.couplingFactor fr (k + 1) (some p) j = .ok f) :
    f = 1 + gap s k * alignment s.kind (memberMag s s.topId k) (memberMag s s.topId (k + 1)) (polariserAt s k) := by
  unfold couplingFactor at h
  dsimp only at h
  rw [if_pos hd, Nat.add_sub_cancel, frozen_spec ht hf k (by omega), frozen_spec ht hf (k + 1) hk] at h
  dsimp only at h
  split at h
  · cases h
  · rename_i x hx
    cases h
    rw [effective_spec hx]
    simp [Scalar.ofNat_real]

/-- helper -/
theorem factor_direct {s : Stack ℝ} {fr : List (CVec ℝ × CVec ℝ)} (hd : s.delayed = false) {k : Nat} {p j : Junction ℝ} {f : ℝ}
    (h : s.couplingFactor fr (k + 1) (some p) j = .ok f) :
    ∃ a b q, p.getLayerMagnetisation s.topId = .ok a ∧ j.getLayerMagnetisation s.topId = .ok b ∧
      p.getLayerMagnetisation s.bottomId = .ok q ∧ f = 1 + gap s k * alignment s.kind a b q := by
  unfold couplingFactor at h
  dsimp only at h
  rw [if_neg (by simp [hd]), Nat.add_sub_cancel] at h
  split at h
  · rename_i a b q ha hb hq
    split at h
    · cases h
    · rename_i x hx
      cases h
      exact ⟨a, b, q, ha, hb, hq, by rw [effective_spec hx]; simp [Scalar.ofNat_real]⟩
  · cases h

/-- helper -/
theorem mul_ok {d d' : ScalarDriver ℝ} {e ph : ℝ} (h : d.mul e = .ok d') : d'.phaseShift ph = scaled d e ph := by
  unfold ScalarDriver.mul ScalarDriver.mk' at h
  split at h
  · cases h
  · split at h
    · cases h
    · cases h; rfl

/-- helper -/
theorem phase_spec (s : Stack ℝ) (i : Nat) : s.getPhaseOffset i = phaseOf s i := by
  unfold getPhaseOffset phaseOf
  cases s.kind <;> simp [Scalar.lit_real]

/-- helper -/
theorem product_of (e : Nat → ℝ) (f : Nat → ℝ) (n : Nat) (h0 : e 0 = 1) (h : ∀ k, k + 1 < n → e (k + 1) = e k * f k) :
    ∀ i < n, e i = ∏ k ∈ Finset.range i, f k := by
  intro i
  induction i with
  | zero => intro _; simp [h0]
  | succ i ih =>
    intro hi
    rw [Finset.prod_range_succ, ← ih (by omega), h i hi]

/-- helper: one step, with the factors still to be identified -/
theorem step_currents {s s' : Stack ℝ} {r : Runner} {two : Bool} {t dt : ℝ} {vs : List (ℝ × ℝ)}
    (h : s.step r two t dt = .ok vs s') (f : Nat → ℝ)
    (hf : ∀ fr, s.freeze two = .ok fr → ∀ (k : Nat) (p j : Junction ℝ) (x : ℝ), s'.junctions[k]? = some p → s.junctions[k + 1]? = some j →
      s.couplingFactor fr (k + 1) (some p) j = .ok x → x = f k) (i : Nat) (j' : Junction ℝ) (hj : s'.junctions[i]? = some j') :
    (∀ l ∈ j'.layers, l.currentDriver = scaled s.currentDriver (∏ k ∈ Finset.range i, f k) (phaseOf s i)) ∧
    ∃ R rest, vs[i]? = some (R, (scaled s.currentDriver (∏ k ∈ Finset.range i, f k) (phaseOf s i)).value t) ∧
      j'.getMagnetoresistance = .ok (R :: rest) := by
  obtain ⟨fr, js, h1, h2, rfl⟩ := step_ok h
  obtain ⟨l1, l2, e, a1, a2, -, a4⟩ := junctionLoop_ok h2
  change js[i]? = some j' at hj
  have hi : i < s.junctions.length := by rw [← l2]; exact (List.getElem?_eq_some_iff.1 hj).1
  have he : e i = ∏ k ∈ Finset.range i, f k := by
    refine product_of e f s.junctions.length ?_ ?_ i hi
    · rw [a2 s.junctions[0] (List.getElem?_eq_getElem (by omega)) rfl]; simp [Scalar.ofNat_real]
    · intro k hk
      have hk2 : k < js.length := by omega
      obtain ⟨x, b1, b2⟩ := a4 k js[k] s.junctions[k + 1] (List.getElem?_eq_getElem hk2) (List.getElem?_eq_getElem hk)
      rw [Nat.zero_add] at b1
      rw [b2, hf fr h1 k _ _ x (List.getElem?_eq_getElem hk2) (List.getElem?_eq_getElem hk) b1]
  obtain ⟨v, j'', c1, c2, c3⟩ := a1 i s.junctions[i] (List.getElem?_eq_getElem hi)
  rw [hj] at c2; cases c2
  rw [Nat.zero_add] at c3
  obtain ⟨d, rest, d1, d2, d3, d4, d5⟩ := stepJunction_ok c3
  rw [he] at d1
  rw [mul_ok d1, phase_spec] at d3 d5
  refine ⟨?_, v.1, rest, by rw [c1, ← d5], d4⟩
  have := carry_step (scaled s.currentDriver (∏ k ∈ Finset.range i, f k) (phaseOf s i)) _ r t dt (carry_mem _ s.junctions[i])
  rw [d3] at this
  exact this

/-- C35: in a step with delayed coupling junction `i` gets the stack's driver scaled by the product over the gaps
before it, all factors taken from the state before the step, and shifted in phase; this is also the current reported
for the step. The reported resistance is the junction's. -/
theorem C35_delayed (s s' : Stack ℝ) (r : Runner) (two : Bool) (t dt : ℝ) (vs : List (ℝ × ℝ)) (hd : s.delayed = true)
    (ht : s.isTwoLayerMemberStack = .ok two) (h : s.step r two t dt = .ok vs s') (i : Nat) (j' : Junction ℝ)
    (hj : s'.junctions[i]? = some j') :
    let d := scaled s.currentDriver (currentFactor s (memberMag s s.topId) (memberMag s s.topId) (polariserAt s) i) (phaseOf s i)
    (∀ l ∈ j'.layers, l.currentDriver = d) ∧
    ∃ R rest, vs[i]? = some (R, d.value t) ∧ j'.getMagnetoresistance = .ok (R :: rest) := by
  refine step_currents h (fun k => 1 + gap s k * alignment s.kind (memberMag s s.topId k) (memberMag s s.topId (k + 1)) (polariserAt s k)) ?_ i j' hj
  intro fr hfr k p j x _ hj hx
  exact factor_delayed ht hfr hd (List.getElem?_eq_some_iff.1 hj).1 hx

/-- C35: without delay the factor of a gap uses the junction before it as already stepped and the one behind it as not
yet stepped; the polariser is the bottom layer of the one before. -/
theorem C35_direct (s s' : Stack ℝ) (r : Runner) (two : Bool) (t dt : ℝ) (vs : List (ℝ × ℝ)) (hd : s.delayed = false)
    (h : s.step r two t dt = .ok vs s') (i : Nat) (j' : Junction ℝ) (hj : s'.junctions[i]? = some j') :
    let d := scaled s.currentDriver (currentFactor s (memberMag s' s.topId) (memberMag s s.topId) (memberMag s' s.bottomId) i) (phaseOf s i)
    (∀ l ∈ j'.layers, l.currentDriver = d) ∧
    ∃ R rest, vs[i]? = some (R, d.value t) ∧ j'.getMagnetoresistance = .ok (R :: rest) := by
  refine step_currents h (fun k => 1 + gap s k * alignment s.kind (memberMag s' s.topId k) (memberMag s s.topId (k + 1)) (memberMag s' s.bottomId k)) ?_ i j' hj
  intro fr hfr k p j x hp hj hx
  obtain ⟨a, b, q, ha, hb, hq, rfl⟩ := factor_direct hd hx
  rw [memberMag_of hp ha, memberMag_of hj hb, memberMag_of hp hq]

/-! ### Whole runs -/

/-- helper: members keep their parameters, reference vectors and names -/
def Rigid (j j' : Junction ℝ) : Prop :=
  SameParams j j' ∧ j'.layers.map (fun l => (l.id, l.referenceLayer)) = j.layers.map (fun l => (l.id, l.referenceLayer))

/-- helper -/
theorem Same.rigid {l l' : Layer ℝ} (h : Same l l') : (l'.id, l'.referenceLayer) = (l.id, l.referenceLayer) := by
  obtain ⟨_, _, _, _, _, rfl⟩ := h; rfl

/-- helper -/
theorem sames_rigid {ls ls' : List (Layer ℝ)} (h : List.Forall₂ Same ls ls') :
    ls'.map (fun l => (l.id, l.referenceLayer)) = ls.map (fun l => (l.id, l.referenceLayer)) := by
  induction h with
  | nil => rfl
  | cons hab _ ih => rw [List.map_cons, List.map_cons, Same.rigid hab, ih]

/-- helper -/
theorem kept_rigid : Kept Rigid where
  refl j := ⟨.refl j, rfl⟩
  trans _ _ _ h h' := ⟨h.1.trans h'.1, Eq.trans h'.2 h.2⟩
  current j d := ⟨kept_params.current j d, by simp only [carry, withLayers_layers, List.map_map]; rfl⟩
  step j r t dt := ⟨kept_params.step j r t dt, sames_rigid (runStep_same j r t dt)⟩
  solver j m n := ⟨kept_params.solver j m n, sames_rigid (getSolver_same j m n)⟩

/-- helper -/
theorem Rigid.len {j j' : Junction ℝ} (h : Rigid j j') : j'.layers.length = j.layers.length := h.1.2.2.2.2.2.2.2.2.2.2.2.symm

/-- helper -/
theorem twoLayers_rigid {s s' : Stack ℝ} (h : List.Forall₂ Rigid s.junctions s'.junctions) : TwoLayers s' ↔ TwoLayers s := by
  unfold TwoLayers
  generalize s.junctions = a at h
  generalize s'.junctions = b at h
  induction h with
  | nil => simp
  | cons hab _ ih => simp only [List.mem_cons, forall_eq_or_imp, ih, hab.len]

/-- helper -/
theorem gap_frame {s s' : Stack ℝ} (h : Frame s s') (k : Nat) : gap s' k = gap s k := by
  unfold gap; rw [h.2.2.2.2.1]

/-- helper -/
theorem factor_frame {s s' : Stack ℝ} (h : Frame s s') (m m' p : Nat → CVec ℝ) (i : Nat) :
    currentFactor s' m m' p i = currentFactor s m m' p i := by
  unfold currentFactor
  simp only [gap_frame h, h.1]

/-- helper -/
theorem phase_frame {s s' : Stack ℝ} (h : Frame s s') (i : Nat) : phaseOf s' i = phaseOf s i := by
  unfold phaseOf; rw [h.1, h.2.2.2.1]

/-- helper: choosing the solvers moves no magnetisation -/
theorem solverLoop_mag (n : Nat) (mode : SolverMode) (ls : List (Layer ℝ)) :
    List.Forall₂ (fun l l' => l'.mag = l.mag ∧ l'.id = l.id ∧ l'.referenceLayer = l.referenceLayer) ls (solverLoop n mode ls).st := by
  induction ls generalizing mode with
  | nil => exact .nil
  | cons l ls ih =>
    unfold solverLoop
    dsimp only
    split
    · exact .cons ⟨rfl, rfl, rfl⟩ (ih _)
    · have hc : (l.createBufferedAlphaNoise n).st.mag = l.mag ∧ (l.createBufferedAlphaNoise n).st.id = l.id ∧
          (l.createBufferedAlphaNoise n).st.referenceLayer = l.referenceLayer := by
        unfold createBufferedAlphaNoise
        split
        · exact ⟨rfl, rfl, rfl⟩
        · split <;> exact ⟨rfl, rfl, rfl⟩
      rcases hx : l.createBufferedAlphaNoise n with ⟨_ | _, l'⟩
      · rw [hx] at hc
        exact .cons hc (forall₂_refl (fun _ => ⟨rfl, rfl, rfl⟩) _)
      · rw [hx] at hc
        exact .cons hc (ih _)

/-- helper -/
def SameMags (j j' : Junction ℝ) : Prop :=
  List.Forall₂ (fun l l' : Layer ℝ => l'.mag = l.mag ∧ l'.id = l.id ∧ l'.referenceLayer = l.referenceLayer) j.layers j'.layers

/-- helper -/
theorem sameMags_at {s s' : Stack ℝ} (h : List.Forall₂ SameMags s.junctions s'.junctions) (id : String) (k : Nat) :
    memberMag s' id k = memberMag s id k ∧ memberRef s' id k = memberRef s id k := by
  unfold memberMag memberRef
  rcases hk : s.junctions[k]? with _ | j
  · have : s'.junctions[k]? = none := by
      rw [List.getElem?_eq_none_iff, ← h.length_eq]; exact List.getElem?_eq_none_iff.1 hk
    rw [this]; exact ⟨rfl, rfl⟩
  · obtain ⟨j', hj', hs⟩ := forall₂_get h hk
    rw [hj']
    simp only [Option.bind_some]
    unfold layerNamed
    unfold SameMags at hs
    generalize j.layers = a at hs
    generalize j'.layers = b at hs
    induction hs with
    | nil => exact ⟨rfl, rfl⟩
    | @cons l l' ls ls' hab _ ih =>
      simp only [List.filter_cons, hab.2.1]
      by_cases hd : l.id = id
      · simp [hd, hab.1, hab.2.2]
      · simpa [hd] using ih

/-- helper -/
theorem log_mags {j j' : Junction ℝ} {t : ℝ} (h : j.logLayerParams t false = .ok () j') : j'.layers = j.layers := by
  have := log_layers j t false; rw [h] at this; exact this

/-- helper -/
theorem twoLayer_rigid {s s' : Stack ℝ} (h : List.Forall₂ Rigid s.junctions s'.junctions) :
    s'.isTwoLayerMemberStack = s.isTwoLayerMemberStack := by
  unfold isTwoLayerMemberStack
  generalize s.junctions = a at h
  generalize s'.junctions = b at h
  induction h with
  | nil => rfl
  | cons hab _ ih => unfold twoLayerLoop layerNo; rw [hab.len, ih]

/-- helper -/
theorem resistance_frame {s s' : Stack ℝ} (h : Frame s s') (rs : List ℝ) :
    s'.calculateStackResistance rs = s.calculateStackResistance rs := by
  unfold calculateStackResistance; rw [h.1]

/-- helper -/
theorem solvers_mags {n : Nat} {js js' : List (Junction ℝ)} {rms : List (Runner × SolverMode)} (h : solvers n js = .ok rms js') :
    List.Forall₂ SameMags js js' := by
  have := Out.traverse_keeps SameMags (fun j => forall₂_refl (fun _ => ⟨rfl, rfl, rfl⟩) _) (fun _ j => j.getSolver .RK4 n)
    (fun _ j => by
      unfold SameMags getSolver
      have := solverLoop_mag n .RK4 j.layers
      generalize solverLoop n .RK4 j.layers = x at this
      rcases x with ⟨_ | _, ls⟩ <;> exact this) 0 js
  have h' : (solvers n js).st = js' := by rw [h]; rfl
  rw [← h']; exact this

/-- helper -/
theorem kept_log_rigid (j : Junction ℝ) (t : ℝ) : Rigid j (j.logLayerParams t false).st := by
  exact ⟨log_params j t false, by rw [log_layers]⟩

/-- helper: the states a successful run goes through -/
theorem run_trace {s s' : Stack ℝ} {total dt wf : ℝ} (h : s.runSimulation total dt wf = .ok () s') :
    ∃ (we N : Nat) (two : Bool) (r : Runner) (σ mid : Nat → Stack ℝ) (vs : Nat → List (ℝ × ℝ)),
      castUnsigned (wf / dt) = some we ∧ castUnsigned (total / dt) = some N ∧
      (∀ id k, memberMag (σ 0) id k = memberMag s id k) ∧ σ N = s' ∧ (σ 0).stackLog = s.stackLog ∧
      (∀ k ≤ N, Frame s (σ k) ∧ List.Forall₂ Rigid s.junctions (σ k).junctions) ∧
      ∀ k < N, we ≠ 0 ∧ (σ k).isTwoLayerMemberStack = .ok two ∧
        (σ k).step r two ((k : ℝ) * dt) dt = .ok (vs k) (mid k) ∧
        (σ (k + 1)).junctions.map Junction.layers = (mid k).junctions.map Junction.layers ∧
        (∀ (q : Nat) (j : Junction ℝ), (mid k).junctions[q]? = some j → ∃ j', (σ (k + 1)).junctions[q]? = some j' ∧
          (we ∣ k → j.logLayerParams ((k : ℝ) * dt) false = .ok () j') ∧ (¬ we ∣ k → j' = j)) ∧
        (we ∣ k → (σ (k + 1)).stackLog = (σ k).stackLog.pushAll
          (logEntries ((k : ℝ) * dt) (s.calculateStackResistance ((vs k).map Prod.fst)) ((vs k).map Prod.snd))) ∧
        (¬ we ∣ k → (σ (k + 1)).stackLog = (σ k).stackLog) := by
  obtain ⟨we, N, rms, js, two, r, m, h1, h2, -, h4, -, -, h7, h8⟩ := run_inv h
  obtain ⟨σ, mid, vs, a1, a2, a3⟩ := loop_trace h8
  have hlit : ∀ k : Nat, (Scalar.lit (k : ℚ) : ℝ) = k := fun k => by simp [Scalar.lit_real]
  simp only [Nat.zero_add, hlit] at a3
  have hr0 : List.Forall₂ Rigid s.junctions js := by
    have := solvers_kept kept_rigid N s.junctions; rw [h4] at this; exact this
  have hfr : ∀ k ≤ N, Frame s (σ k) ∧ List.Forall₂ Rigid s.junctions (σ k).junctions := by
    intro k
    induction k with
    | zero => intro _; rw [a1]; exact ⟨.refl s, hr0⟩
    | succ k ih =>
      intro hk
      obtain ⟨f1, f2⟩ := ih (by omega)
      obtain ⟨b1, b2, b3, b4⟩ := a3 k (by omega)
      obtain ⟨g1, -, g2⟩ := step_kept kept_rigid (σ k) r two ((k : ℝ) * dt) dt
      rw [b1] at g1 g2
      by_cases hd : we ∣ k
      · obtain ⟨g3, g4⟩ := logRow_kept kept_rigid kept_log_rigid (mid k) ((k : ℝ) * dt) (vs k)
        rw [b3 hd] at g3 g4
        exact ⟨(f1.trans g1).trans g3, forall₂_trans kept_rigid.trans (forall₂_trans kept_rigid.trans f2 g2) g4⟩
      · rw [b4 hd]
        exact ⟨f1.trans g1, forall₂_trans kept_rigid.trans f2 g2⟩
  refine ⟨we, N, two, r, σ, mid, vs, h1, h2, ?_, a2, by rw [a1]; rfl, hfr, ?_⟩
  · intro id k
    rw [a1]
    exact (sameMags_at (solvers_mags h4) id k).1
  · intro k hk
    obtain ⟨b1, b2, b3, b4⟩ := a3 k hk
    obtain ⟨-, gl, -⟩ := step_kept kept_rigid (σ k) r two ((k : ℝ) * dt) dt
    rw [b1] at gl
    change (mid k).stackLog = (σ k).stackLog at gl
    have hmid : Frame s (mid k) := by
      obtain ⟨g1, -, -⟩ := step_kept kept_rigid (σ k) r two ((k : ℝ) * dt) dt
      rw [b1] at g1
      exact (hfr k hk.le).1.trans g1
    refine ⟨b2, ?_, b1, ?_, ?_, ?_, ?_⟩
    · rw [twoLayer_rigid (hfr k hk.le).2, ← twoLayer_rigid (s' := s.withJunctions js) hr0]; exact h7
    · by_cases hd : we ∣ k
      · obtain ⟨-, -, c3, c4⟩ := logRow_ok (b3 hd)
        apply List.ext_getElem? 
        intro q
        rw [List.getElem?_map, List.getElem?_map]
        by_cases hq : q < (mid k).junctions.length
        · obtain ⟨j', d1, d2⟩ := c4 q _ (List.getElem?_eq_getElem hq)
          rw [d1, List.getElem?_eq_getElem hq]
          simp [log_mags d2]
        · rw [List.getElem?_eq_none (by omega), List.getElem?_eq_none (by omega)]
      · rw [b4 hd]
    · intro q j hj
      by_cases hd : we ∣ k
      · obtain ⟨-, -, c3, c4⟩ := logRow_ok (b3 hd)
        obtain ⟨j', d1, d2⟩ := c4 q j hj
        exact ⟨j', d1, fun _ => d2, fun hn => absurd hd hn⟩
      · exact ⟨j, by rw [b4 hd]; exact hj, fun hn => absurd hn hd, fun _ => rfl⟩
    · intro hd
      obtain ⟨-, c2, -, -⟩ := logRow_ok (b3 hd)
      rw [c2, gl, resistance_frame hmid]
    · intro hd
      rw [b4 hd, gl]

/-- helper -/
theorem memberMag_layers {s s' : Stack ℝ} (h : s'.junctions.map Junction.layers = s.junctions.map Junction.layers) (id : String) (k : Nat) :
    memberMag s' id k = memberMag s id k := by
  have key : ∀ t : Stack ℝ, memberMag t id k = (((t.junctions.map Junction.layers)[k]?.bind fun ls =>
      (ls.filter (fun l => decide (l.id = id))).head?).map Layer.mag).getD CVec.zero := by
    intro t
    unfold memberMag layerNamed
    rw [List.getElem?_map]
    cases t.junctions[k]? <;> rfl
  rw [key, key, h]

/-- helper -/
theorem trace_drivers {s a b m : Stack ℝ} {r : Runner} {two : Bool} {t dt : ℝ} {vs : List (ℝ × ℝ)} (hf : Frame s a)
    (ht : a.isTwoLayerMemberStack = .ok two) (h : a.step r two t dt = .ok vs m)
    (hl : b.junctions.map Junction.layers = m.junctions.map Junction.layers) (q : Nat) (j : Junction ℝ) (hj : m.junctions[q]? = some j) :
    (∀ l ∈ j.layers, l.currentDriver = memberDriver s a b q) ∧
    ∃ R rest, vs[q]? = some (R, (memberDriver s a b q).value t) ∧ j.getMagnetoresistance = .ok (R :: rest) := by
  have e : ∀ id, memberMag b id = memberMag m id := fun id => funext fun k => memberMag_layers hl id k
  unfold memberDriver
  by_cases hd : s.delayed = true
  · have := C35_delayed a m r two t dt vs (hf.2.2.2.2.2.1.trans hd) ht h q j hj
    rw [if_pos hd]
    rw [factor_frame hf, phase_frame hf, hf.2.2.2.2.2.2, hf.2.1] at this
    exact this
  · have hd' : s.delayed = false := by simpa using hd
    have := C35_direct a m r two t dt vs (hf.2.2.2.2.2.1.trans hd') h q j hj
    rw [if_neg hd, e, e]
    rw [factor_frame hf, phase_frame hf, hf.2.2.2.2.2.2, hf.2.1, hf.2.2.1] at this
    exact this

/-- helper: a column of the stack log after a run -/
theorem trace_col {s : Stack ℝ} {we N : Nat} {dt : ℝ} {σ : Nat → Stack ℝ} {vs : Nat → List (ℝ × ℝ)} (h0 : (σ 0).stackLog = s.stackLog)
    (h : ∀ k < N, (we ∣ k → (σ (k + 1)).stackLog = (σ k).stackLog.pushAll
          (logEntries ((k : ℝ) * dt) (s.calculateStackResistance ((vs k).map Prod.fst)) ((vs k).map Prod.snd))) ∧
        (¬ we ∣ k → (σ (k + 1)).stackLog = (σ k).stackLog)) (key : String) :
    (σ N).stackLog.col key = s.stackLog.col key ++ (sampleSteps N we).flatMap fun k : Nat =>
      Log.vals (logEntries ((k : ℝ) * dt) (s.calculateStackResistance ((vs k).map Prod.fst)) ((vs k).map Prod.snd)) key := by
  induction N with
  | zero => rw [h0]; simp [sampleSteps]
  | succ N ih =>
    obtain ⟨h1, h2⟩ := h N (by omega)
    rw [sampleSteps_succ, List.flatMap_append, ← List.append_assoc, ← ih (fun k hk => h k (by omega))]
    by_cases hd : we ∣ N
    · rw [if_pos hd, h1 hd, Log.col_pushAll]; simp
    · rw [if_neg hd, h2 hd]; simp

/-- helper -/
theorem flatMap_single {α β : Type} (l : List α) (f : α → List β) (g : α → β) (h : ∀ a ∈ l, f a = [g a]) : l.flatMap f = l.map g := by
  induction l with
  | nil => rfl
  | cons a l ih =>
    rw [List.flatMap_cons, List.map_cons, h a (by simp), ih fun b hb => h b (by simp [hb])]; rfl

/-- helper -/
theorem sample_lt {N we k : Nat} (h : k ∈ sampleSteps N we) : k < N ∧ we ∣ k := by
  unfold sampleSteps at h
  simpa using h

/-- helper -/
theorem step_length {s s' : Stack ℝ} {r : Runner} {two : Bool} {t dt : ℝ} {vs : List (ℝ × ℝ)} (h : s.step r two t dt = .ok vs s') :
    vs.length = s.junctions.length ∧ s'.junctions.length = s.junctions.length := by
  obtain ⟨fr, js, -, h2, rfl⟩ := step_ok h
  obtain ⟨l1, l2, -⟩ := junctionLoop_ok h2
  exact ⟨l1, l2⟩

/-- C35: a successful run goes through states such that in every step each member carries the stack's driver scaled by
the product of the factors of this step; the stack's own driver never changes, so nothing accumulates over steps or
runs. The logged currents are the values of these drivers at the sampled times. -/
theorem C35_run (s s' : Stack ℝ) (total dt wf : ℝ) (h : s.runSimulation total dt wf = .ok () s') :
    ∃ (we N : Nat) (σ : Nat → Stack ℝ), castUnsigned (wf / dt) = some we ∧ castUnsigned (total / dt) = some N ∧
      (∀ id k, memberMag (σ 0) id k = memberMag s id k) ∧ σ N = s' ∧ s'.currentDriver = s.currentDriver ∧
      (∀ n < N, ∀ (q : Nat) (j : Junction ℝ), (σ (n + 1)).junctions[q]? = some j →
        ∀ l ∈ j.layers, l.currentDriver = memberDriver s (σ n) (σ (n + 1)) q) ∧
      ∀ q < s.junctions.length, s'.stackLog.col ("I_" ++ toString q) = s.stackLog.col ("I_" ++ toString q) ++
        (sampleSteps N we).map fun n : Nat => (memberDriver s (σ n) (σ (n + 1)) q).value ((n : ℝ) * dt) := by
  obtain ⟨we, N, two, r, σ, mid, vs, h1, h2, h3, h4, h5, h6, h7⟩ := run_trace h
  refine ⟨we, N, σ, h1, h2, h3, h4, ?_, ?_, ?_⟩
  · rw [← h4]; exact (h6 N le_rfl).1.2.2.2.2.2.2
  · intro n hn q j hj
    obtain ⟨-, b2, b3, b4, -⟩ := h7 n hn
    have := congrArg (fun l => l[q]?) b4
    simp only [List.getElem?_map, hj, Option.map_some] at this
    obtain ⟨jm, e1, e2⟩ := Option.map_eq_some_iff.1 this.symm
    rw [← e2]
    exact (trace_drivers (h6 n hn.le).1 b2 b3 b4 q jm e1).1
  · intro q hq
    rw [← h4, trace_col h5 (fun k hk => (h7 k hk).2.2.2.2.2) _]
    congr 1
    refine flatMap_single _ _ _ fun n hn => ?_
    obtain ⟨hn, -⟩ := sample_lt hn
    obtain ⟨-, b2, b3, b4, -⟩ := h7 n hn
    have hl : q < (mid n).junctions.length := by
      rw [(step_length b3).2, ← (h6 n hn.le).2.length_eq]; exact hq
    obtain ⟨-, R, rest, c1, -⟩ := trace_drivers (h6 n hn.le).1 b2 b3 b4 q _ (List.getElem?_eq_getElem hl)
    exact logEntries_current (by rw [List.getElem?_map, c1]; rfl)

/-! ### Without coupling -/

/-- helper -/
theorem factor_zero (s : Stack ℝ) (h : ∀ k, gap s k = 0) (m m' p : Nat → CVec ℝ) (i : Nat) : currentFactor s m m' p i = 1 := by
  unfold currentFactor
  simp [h]

/-- helper -/
theorem driver_zero (s a b : Stack ℝ) (h : ∀ k, gap s k = 0) (q : Nat) : memberDriver s a b q = scaled s.currentDriver 1 (phaseOf s q) := by
  unfold memberDriver
  split <;> rw [factor_zero s h]

/-- C35: with zero coupling all members carry the same current up to the phase, whatever their magnetisations; without
phase offset exactly the stack's current. -/
theorem C35_zero_coupling (s a b : Stack ℝ) (h : ∀ c ∈ s.couplingStrength, c = 0) (q : Nat) :
    memberDriver s a b q = { s.currentDriver with phase := s.currentDriver.phase + phaseOf s q } ∧
    (s.phaseOffset = 0 → memberDriver s a b q = s.currentDriver) := by
  have hg : ∀ k, gap s k = 0 := by
    intro k
    unfold gap
    rw [List.getD_eq_getElem?_getD]
    cases hx : s.couplingStrength[if s.couplingStrength.length = 1 then 0 else k]? with
    | none => simp [Scalar.ofNat_real]
    | some c => exact h c (List.mem_of_getElem? hx)
  rw [driver_zero s a b hg]
  unfold scaled
  refine ⟨by simp, fun hp => ?_⟩
  have : phaseOf s q = 0 := by unfold phaseOf; rw [hp]; cases s.kind <;> simp
  simp [this]

/-- C35: the value of the scaled driver is the scaled value of the driver, except for a negative factor on the two
rectified waves (see C08). -/
theorem C35_value_partial (d : ScalarDriver ℝ) (f t : ℝ) (h : (d.update = .posine ∨ d.update = .halfsine) → 0 ≤ f) :
    (scaled d f 0).value t = f * d.value t := by
  have := ScalarDriver.C08_scale_partial d f t h
  rw [← this]
  unfold scaled ScalarDriver.mulAssign
  simp

/-! ### C36 on logs -/

/-- helper -/
theorem memberR_spec (j : Junction ℝ) (R : ℝ) (rest : List ℝ) (hc : j.mrMode = .CLASSIC) (h : j.getMagnetoresistance = .ok (R :: rest)) :
    R = memberR j := by
  unfold getMagnetoresistance at h
  unfold memberR
  rw [hc] at h
  split at h
  · rename_i l0 l1 _ hl
    cases h
    rw [hl]
    simp only [calculateMagnetoresistance, CVec.dot, Scalar.ofSci_real_true]
    norm_num
    ring
  · rename_i l0 _ hl
    cases h
    rw [hl]
    simp only [calculateMagnetoresistance, CVec.dot, Scalar.ofSci_real_true]
    norm_num
    ring
  · simp at *
  · cases h

/-- C36: the logged resistance is, at every sampled step, the circuit combination of the members' resistances in the
state reached by this step. -/
theorem C36_run (s s' : Stack ℝ) (total dt wf : ℝ) (hc : ∀ j ∈ s.junctions, j.mrMode = .CLASSIC)
    (h : s.runSimulation total dt wf = .ok () s') :
    ∃ (we N : Nat) (σ : Nat → Stack ℝ), castUnsigned (wf / dt) = some we ∧ castUnsigned (total / dt) = some N ∧
      (∀ id k, memberMag (σ 0) id k = memberMag s id k) ∧ σ N = s' ∧ (∀ n ≤ N, (σ n).junctions.length = s.junctions.length) ∧
      s'.stackLog.col "Resistance" = s.stackLog.col "Resistance" ++ (sampleSteps N we).map fun n : Nat =>
        match s.kind with
        | .series => ((σ (n + 1)).junctions.map memberR).sum
        | .parallel => 1 / ((σ (n + 1)).junctions.map fun j => 1 / memberR j).sum := by
  obtain ⟨we, N, two, r, σ, mid, vs, h1, h2, h3, h4, h5, h6, h7⟩ := run_trace h
  refine ⟨we, N, σ, h1, h2, h3, h4, fun n hn => (h6 n hn).2.length_eq.symm, ?_⟩
  rw [← h4, trace_col h5 (fun k hk => (h7 k hk).2.2.2.2.2) _]
  congr 1
  refine flatMap_single _ _ _ fun n hn => ?_
  rw [logEntries_resistance]
  congr 1
  obtain ⟨hn, -⟩ := sample_lt hn
  obtain ⟨-, b2, b3, b4, b5, -⟩ := h7 n hn
  have hlen := step_length b3
  have hmode : ∀ j ∈ (σ (n + 1)).junctions, j.mrMode = .CLASSIC :=
    forall_of_forall₂ (fun a b hab ha => hab.1.1.symm.trans ha) (h6 (n + 1) hn).2 hc
  have hR : (vs n).map Prod.fst = (σ (n + 1)).junctions.map memberR := by
    apply List.ext_getElem?
    intro q
    rw [List.getElem?_map, List.getElem?_map]
    by_cases hq : q < (mid n).junctions.length
    · obtain ⟨-, R, rest, c1, c2⟩ := trace_drivers (h6 n hn.le).1 b2 b3 b4 q _ (List.getElem?_eq_getElem hq)
      obtain ⟨j', d1, d2, d3⟩ := b5 q _ (List.getElem?_eq_getElem hq)
      rw [c1, d1]
      simp only [Option.map_some, Option.some.injEq]
      refine memberR_spec j' R rest (hmode j' (List.mem_of_getElem? d1)) ?_
      by_cases hd : we ∣ n
      · rw [← c2]
        have hp := log_params (mid n).junctions[q] ((n : ℝ) * dt) false
        rw [d2 hd] at hp
        obtain ⟨p1, p2, p3, p4, p5, p6, p7, p8, p9, p10, -, -⟩ := hp
        dsimp only [Out.ok] at p1 p2 p3 p4 p5 p6 p7 p8 p9 p10
        unfold getMagnetoresistance stripMagnetoResistance calculateMagnetoresistance
        rw [log_mags (d2 hd), p1, p2, p3, p4, p5, p6, p7, p8, p9, p10]
      · rw [d3 hd]; exact c2
    · have hl2 : (σ (n + 1)).junctions.length = (mid n).junctions.length := by
        simpa using congrArg List.length b4
      rw [List.getElem?_eq_none (by omega), List.getElem?_eq_none (by omega)]
      rfl
  rw [hR]
  cases hk : s.kind with
  | series => rw [(C36_formula s _).1 hk]
  | parallel => rw [(C36_formula s _).2 hk, List.map_map]; rfl

end Stack
