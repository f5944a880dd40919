import Verif.Lemmas.Keys
import Verif.Props.Uncoupled
import Verif.Props.Setters
import Mathlib.Algebra.Order.Floor.Semiring
import Mathlib.Algebra.Order.Floor.Ring

/-! # C27, C31: what a run does and which integrator it uses -/

set_option linter.unusedSectionVars false

namespace Junction
open Spec Layer
variable {T : Type} [Scalar T]

/-! ### helpers -/

/-- helper -/
theorem samples_eq (N W : Nat) : (List.range' 0 N).filter (fun m => m % W = 0) = sampleSteps N W := by
  unfold sampleSteps
  rw [List.range_eq_range']
  congr 1
  funext m
  simp [Nat.dvd_iff_mod_eq_zero]

/-- helper -/
theorem logged_eq (r : Runner) (dt : T) (W N : Nat) (j : Junction T) : logged r dt W 0 N j =
    (sampleSteps N W).map fun m => ((steps r dt 0 (m + 1) j).st.layers, Scalar.lit (m : ℚ) * dt) := by
  unfold logged
  rw [samples_eq]
  simp only [steps_eq_evolve, Nat.sub_zero]

/-- helper -/
theorem evolve_same (r : Runner) (dt : T) (n i : Nat) (j : Junction T) :
    List.Forall₂ Same j.layers (evolve r dt i n j).st.layers := by
  induction n generalizing i j with
  | zero => exact forall₂_refl Same.refl _
  | succ n ih =>
    unfold evolve
    have h1 := runStep_same j r (Scalar.lit (i : ℚ) * dt) dt
    generalize j.runStep r (Scalar.lit (i : ℚ) * dt) dt = x at h1
    rcases x with ⟨_ | _, k⟩
    · exact h1
    · exact sames_trans h1 (ih _ k)

/-- helper: a column of a log in which every row holds exactly one value for the key -/
theorem col_rows {α : Type} (L : Log T) (key : String) (rows : List α) (f : α → List (String × T)) (v : α → T)
    (h : ∀ a ∈ rows, Log.vals (f a) key = [v a]) :
    (L.pushAll (rows.flatMap f)).col key = L.col key ++ rows.map v := by
  rw [Log.col_pushAll, Log.vals_flatMap]
  congr 1
  induction rows with
  | nil => rfl
  | cons a rows ih =>
    rw [List.flatMap_cons, h a (by simp), ih (fun b hb => h b (List.mem_cons_of_mem _ hb))]; rfl

/-- helper -/
theorem mrOk_withLayers {j : Junction T} (h : j.MrOk) {ls : List (Layer T)} (hl : ls.length = j.layers.length) :
    (j.withLayers ls).MrOk := (sameParams_of_layers j ls hl).mrOk h

/-- helper -/
theorem magOf_eq {ls : List (Layer T)} {q : Nat} {l : Layer T} (h : ls[q]? = some l) : magOf ls q = l.mag := by
  unfold magOf; rw [h]

/-- helper: the resistance entries are the values `getMagnetoresistance` returns -/
theorem mr_read (j : Junction T) (hm : j.MrOk) (hr : j.RtagOk) (hn : j.layers ≠ []) (hmode : j.mrMode ≠ .NONE) :
    ∃ v, j.getMagnetoresistance = .ok v ∧ j.mrEntries = .ok ((resistanceNames j).zip v) ∧ v.length = (resistanceNames j).length := by
  unfold getMagnetoresistance mrEntries resistanceNames
  rcases hmo : j.mrMode with _ | _ | _
  · exact absurd hmo hmode
  · match hl : j.layers with
    | [] => exact absurd hl hn
    | [l] => exact ⟨_, rfl, rfl, rfl⟩
    | [a, b] =>
      obtain ⟨-, h2⟩ := hr hmo a.id b.id [] (by rw [hl]; rfl)
      refine ⟨_, rfl, ?_, rfl⟩
      rw [h2]; rfl
    | a :: b :: c :: r =>
      obtain ⟨h1, -⟩ := hr hmo a.id b.id _ (by rw [hl]; rfl)
      cases h1
  · obtain ⟨h1, h2, h3, h4, h5, h6, h7⟩ := hm hmo
    obtain ⟨p, hp⟩ := stripLoop_some j.layers j.Rx0 j.Ry0 j.AMR_X j.SMR_X j.AMR_Y j.SMR_Y j.AHE 0 0 h1 h2 h3 h5 h4 h6 h7
    dsimp only
    unfold stripMagnetoResistance
    rw [hp]
    exact ⟨_, rfl, rfl, rfl⟩

/-- helper -/
theorem mrKeys_names {j : Junction T} (hR : j.RtagOk) : mrKeys j j.layers = resistanceNames j := by
  unfold mrKeys resistanceNames
  rcases hmo : j.mrMode with _ | _ | _
  · rfl
  · match hl : j.layers with
    | [] => rfl
    | [l] => rfl
    | [a, b] =>
      obtain ⟨-, h2⟩ := hR hmo a.id b.id [] (by rw [hl]; rfl)
      simp only [h2, List.map_cons, List.map_nil]
    | a :: b :: c :: r =>
      obtain ⟨h1, -⟩ := hR hmo a.id b.id _ (by rw [hl]; rfl)
      cases h1
  · rfl

/-- helper -/
theorem reachable_nonempty {j : Junction T} (h : Reachable j) : j.layers ≠ [] := by
  obtain ⟨j0, cs, h0, rfl⟩ := h
  have h1 := (Constructed_inv h0).2.2.2.2
  have h2 := (program_params cs j0).2.2.2.2.2.2.2.2.2.2.2
  intro h; rw [h] at h2
  exact h1 (List.length_eq_zero_iff.1 h2)

/-! ### C27 -/

/-- C27: a successful run executes `N` solver steps at the times `i·dt`, `i < N`, where `N` is the truncated quotient
of duration and step, and logs after exactly those steps `m < N` that the truncated quotient `W` of write interval
and step divides: the time `m·dt` and the magnetisation of every layer as it is after step `m`. -/
theorem C27_run {j k : Junction T} (hr : Reachable j) (hd : DistinctIds j) {total dt wf : T} {en : Bool} {mode : SolverMode}
    (h : j.runSimulation total dt wf en mode = .ok () k) :
    ∃ N W r m j1, Scalar.toUInt (total / dt) = some N ∧ Scalar.toUInt (wf / dt) = some W ∧
      j.getSolver mode N = .ok (r, m) j1 ∧ (N ≠ 0 → W ≠ 0) ∧
      (steps r dt 0 N j1).res = .ok () ∧ k.layers = (steps r dt 0 N j1).st.layers ∧
      k.logLength = j.logLength + (sampleSteps N W).length ∧
      k.log.col "time" = j.log.col "time" ++ (sampleSteps N W).map (fun i : Nat => Scalar.lit (i : ℚ) * dt) ∧
      ∀ (q : Nat) (l : Layer T), j.layers[q]? = some l →
        k.log.col (l.id ++ "_mx") = j.log.col (l.id ++ "_mx")
          ++ (sampleSteps N W).map (fun i => (magOf (steps r dt 0 (i + 1) j1).st.layers q).x) ∧
        k.log.col (l.id ++ "_my") = j.log.col (l.id ++ "_my")
          ++ (sampleSteps N W).map (fun i => (magOf (steps r dt 0 (i + 1) j1).st.layers q).y) ∧
        k.log.col (l.id ++ "_mz") = j.log.col (l.id ++ "_mz")
          ++ (sampleSteps N W).map (fun i => (magOf (steps r dt 0 (i + 1) j1).st.layers q).z) := by
  obtain ⟨hm, hR⟩ := Reachable_inv hr
  obtain ⟨N', W', r', m', j1', hw, hN', hW', hg', hloop⟩ := Sim.run_inv h
  obtain ⟨N, W, r, m, j1, -, hN, hW, hg, hNW, hlog, hlen, hlay⟩ := runSimulation_log hm h
  have hs1 : List.Forall₂ Same j.layers j1.layers := by
    have := getSolver_same j mode N; rw [hg] at this; exact this
  rw [logged_eq] at hlog hlen
  rw [← steps_eq_evolve] at hlay
  have hst : ∀ i, List.Forall₂ Same j.layers (steps r dt 0 i j1).st.layers := fun i => by
    rw [steps_eq_evolve]; exact sames_trans hs1 (evolve_same r dt i 0 j1)
  have hres : (steps r dt 0 N j1).res = .ok () := by
    rw [hN] at hN'; cases hN'
    rw [hg] at hg'; cases hg'
    obtain ⟨k', hk', -⟩ := runLoop_evolve _ dt _ en hloop rfl
    rw [steps_eq_evolve, hk']; rfl
  have hms : ∀ i, (j.withLayers (steps r dt 0 i j1).st.layers).MrOk := fun i => mrOk_withLayers hm (hst i).length_eq.symm
  have hids : ∀ i, j.layers.map Layer.id = (steps r dt 0 i j1).st.layers.map Layer.id := fun i => (same_ids (hst i)).symm
  refine ⟨N, W, r, m, j1, hN, hW, hg, hNW, hres, hlay, by rw [hlen]; simp, ?_, ?_⟩
  · rw [hlog, col_rows j.log "time" _ (rowOf j en) Prod.snd, List.map_map]
    · rfl
    · intro p hp
      obtain ⟨i, _, rfl⟩ := List.mem_map.1 hp
      exact row_time j (hms _) hR (hids _)
  · intro q l hl
    have hq : ∀ i, ∃ l', (steps r dt 0 i j1).st.layers[q]? = some l' ∧ Same l l' := by
      intro i
      have hlt : q < (steps r dt 0 i j1).st.layers.length := by
        rw [← (hst i).length_eq]; exact (List.getElem?_eq_some_iff.1 hl).1
      refine ⟨_, List.getElem?_eq_getElem hlt, ?_⟩
      have := (List.forall₂_iff_get.1 (hst i)).2 q (List.getElem?_eq_some_iff.1 hl).1 hlt
      simpa [(List.getElem?_eq_some_iff.1 hl).2] using this
    have main : ∀ (s : String) (g : CVec T → T), Keys.Suf s →
        (∀ l' : Layer T, Log.vals (layerEntries l' en) (l'.id ++ s) = [g l'.mag]) →
        k.log.col (l.id ++ s) = j.log.col (l.id ++ s)
          ++ (sampleSteps N W).map (fun i => g (magOf (steps r dt 0 (i + 1) j1).st.layers q)) := by
      intro s g hs hv
      rw [hlog, col_rows j.log (l.id ++ s) _ (rowOf j en) (fun p => g (magOf p.1 q)), List.map_map]
      · rfl
      · intro p hp
        obtain ⟨i, _, rfl⟩ := List.mem_map.1 hp
        obtain ⟨l', hl', hsame⟩ := hq (i + 1)
        have hid : l'.id = l.id := hsame.id
        rw [← hid, row_layer j (hms _) hR (hids _) (by rw [← hids]; exact hd) (List.mem_of_getElem? hl') hs, hv,
          magOf_eq hl']
    exact ⟨main "_mx" CVec.x suf_mx fun l' => (vals_mag l' en).1, main "_my" CVec.y suf_my fun l' => (vals_mag l' en).2.1,
      main "_mz" CVec.z suf_mz fun l' => (vals_mag l' en).2.2⟩

/-- C27: the resistance columns hold, for every logged step, what `getMagnetoresistance` returns in the state after
that step. -/
theorem C27_resistance {j k : Junction T} (hr : Reachable j) (hmode : j.mrMode ≠ .NONE) {total dt wf : T} {en : Bool}
    {mode : SolverMode} (h : j.runSimulation total dt wf en mode = .ok () k) :
    ∃ (N W : Nat) (r : Runner) (m : SolverMode) (j1 : Junction T) (v : Nat → List T), Scalar.toUInt (total / dt) = some N ∧ Scalar.toUInt (wf / dt) = some W ∧
      j.getSolver mode N = .ok (r, m) j1 ∧
      (∀ i : Nat, ({ j with layers := (steps r dt 0 (i + 1) j1).st.layers } : Junction T).getMagnetoresistance = .ok (v i)) ∧
      ∀ (q : Nat) (name : String), (resistanceNames j)[q]? = some name →
        (k.log.col name).map some = (j.log.col name).map some ++ (sampleSteps N W).map (fun i => (v i)[q]?) := by
  obtain ⟨hm, hR⟩ := Reachable_inv hr
  have hne := reachable_nonempty hr
  obtain ⟨N, W, r, m, j1, -, hN, hW, hg, hNW, hlog, hlen, hlay⟩ := runSimulation_log hm h
  have hs1 : List.Forall₂ Same j.layers j1.layers := by
    have := getSolver_same j mode N; rw [hg] at this; exact this
  rw [logged_eq] at hlog
  have hst : ∀ i, List.Forall₂ Same j.layers (steps r dt 0 i j1).st.layers := fun i => by
    rw [steps_eq_evolve]; exact sames_trans hs1 (evolve_same r dt i 0 j1)
  have hms : ∀ i, (j.withLayers (steps r dt 0 i j1).st.layers).MrOk := fun i => mrOk_withLayers hm (hst i).length_eq.symm
  have hids : ∀ i, j.layers.map Layer.id = (steps r dt 0 i j1).st.layers.map Layer.id := fun i => (same_ids (hst i)).symm
  have hex : ∀ i, ∃ v, (j.withLayers (steps r dt 0 (i + 1) j1).st.layers).getMagnetoresistance = .ok v ∧
      (j.withLayers (steps r dt 0 (i + 1) j1).st.layers).mrEntries = .ok ((resistanceNames j).zip v) ∧
      v.length = (resistanceNames j).length := by
    intro i
    have e : resistanceNames j = resistanceNames (j.withLayers (steps r dt 0 (i + 1) j1).st.layers) := by
      unfold resistanceNames
      rw [withLayers_layers, ← hids]; rfl
    rw [e]
    refine mr_read _ (hms _) ?_ ?_ hmode
    · exact hR.params (sameParams_of_layers j _ (hst _).length_eq.symm) (hids _).symm
    · intro h
      have := (hst (i + 1)).length_eq
      rw [show (steps r dt 0 (i + 1) j1).st.layers = [] from h] at this
      exact hne (List.length_eq_zero_iff.1 this)
  choose v hv1 hv2 hv3 using hex
  refine ⟨N, W, r, m, j1, v, hN, hW, hg, hv1, fun q name hq => ?_⟩
  have hkeys : mrKeys j j.layers = resistanceNames j := mrKeys_names hR
  obtain ⟨k1, k2, k3⟩ := mrKeys_ok j j.layers hR rfl
  rw [hkeys] at k1 k2 k3
  have hmem : name ∈ resistanceNames j := List.mem_of_getElem? hq
  have hval : ∀ i, ∃ x, (v i)[q]? = some x ∧
      Log.vals (rowOf j en ((steps r dt 0 (i + 1) j1).st.layers, Scalar.lit (i : ℚ) * dt)) name = [x] := by
    intro i
    have hlt : q < (v i).length := by rw [hv3]; exact (List.getElem?_eq_some_iff.1 hq).1
    refine ⟨_, List.getElem?_eq_getElem hlt, ?_⟩
    unfold rowOf
    rw [hv2]
    dsimp only
    rw [Log.vals_append, Log.vals_append, Log.vals_none, Log.vals_none (ps := [("time", _)])]
    · simp only [List.nil_append, List.append_nil]
      refine Log.vals_one ?_ ?_
      · rw [List.map_fst_zip (by rw [hv3])]; exact k1
      · rw [List.mem_iff_getElem?]
        refine ⟨q, ?_⟩
        rw [List.getElem?_zip_eq_some]
        exact ⟨hq, List.getElem?_eq_getElem hlt⟩
    · simp only [List.map_cons, List.map_nil, List.mem_singleton]
      rintro rfl; exact k2 hmem
    · intro hk
      obtain ⟨l, hl, s, hs, rfl⟩ := mem_layer_keys hk
      obtain ⟨l0, hl0, hid⟩ : ∃ l0 ∈ j.layers, l0.id = l.id := by
        have : l.id ∈ j.layers.map Layer.id := by rw [hids (i + 1)]; exact List.mem_map.2 ⟨l, hl, rfl⟩
        obtain ⟨l0, h1, h2⟩ := List.mem_map.1 this
        exact ⟨l0, h1, h2⟩
      exact k3 l0 hl0 s hs (by rw [hid]; exact hmem)
  choose x hx1 hx2 using hval
  have := col_rows j.log name (sampleSteps N W)
    (fun i => rowOf j en ((steps r dt 0 (i + 1) j1).st.layers, Scalar.lit (i : ℚ) * dt)) x (fun i _ => hx2 i)
  rw [hlog, List.flatMap_map, this, List.map_append, List.map_map]
  congr 1
  exact List.map_congr_left fun i _ => (hx1 i).symm

/-- C27: which steps are logged. -/
theorem C27_sample_steps (N W m : Nat) : m ∈ sampleSteps N W ↔ m < N ∧ W ∣ m := by simp [sampleSteps]

/-- C27: the number of logged rows is the quotient rounded up. -/
theorem C27_count (N W : Nat) (h : 0 < W) : (sampleSteps N W).length = ⌈(N : ℚ) / W⌉₊ ∧ (sampleSteps N W).length = (N + W - 1) / W := by
  have h1 : (sampleSteps N W).length = (N + W - 1) / W := by
    unfold sampleSteps
    induction N with
    | zero =>
      have : W - 1 < W := by omega
      simp [Nat.div_eq_of_lt this]
    | succ n ih =>
      rw [List.range_succ, List.filter_append, List.length_append, ih, show n + 1 + W - 1 = (n + W - 1) + 1 by omega, Nat.succ_div,
        show n + W - 1 + 1 = n + W by omega]
      congr 1
      simp only [Nat.dvd_add_self_right]
      by_cases hd : W ∣ n <;> simp [hd]
  refine ⟨?_, h1⟩
  rw [h1]
  symm
  have hW : (0 : ℚ) < W := by exact_mod_cast h
  apply le_antisymm
  · rw [Nat.ceil_le, div_le_iff₀ hW]
    have := Nat.div_add_mod (N + W - 1) W
    have h2 := Nat.mod_lt (N + W - 1) h
    have : N ≤ (N + W - 1) / W * W := by
      rw [mul_comm]; omega
    exact_mod_cast this
  · rw [Nat.div_le_iff_le_mul_add_pred h]
    have h3 : (N : ℚ) ≤ ⌈(N : ℚ) / W⌉₊ * W := by
      rw [← div_le_iff₀ hW]; exact Nat.le_ceil _
    have h4 : N ≤ ⌈(N : ℚ) / W⌉₊ * W := by exact_mod_cast h3
    rw [mul_comm]
    omega

/-- C27: a step larger than the write interval is refused and nothing changes. -/
theorem C27_refuses (j : Junction T) (total dt wf : T) (en : Bool) (mode : SolverMode) (h : Scalar.ltb wf dt = true) :
    j.runSimulation total dt wf en mode = .fail .timeStepTooLarge j := by
  unfold runSimulation; rw [if_pos h]

/-- helper -/
theorem toUInt_floor (x : ℝ) (h0 : 0 ≤ x) (h1 : x < 4294967296) : Scalar.toUInt x = some ⌊x⌋₊ := by
  change (if _ then _ else _) = _
  rw [if_pos ⟨by linarith, h1⟩]
  unfold Scalar.truncR
  rw [if_pos h0, Int.floor_toNat]

/-- C27 in real arithmetic: the counts are the floors, the sample count their quotient rounded up. -/
theorem C27_real {j k : Junction ℝ} (hr : Reachable j) (hd : DistinctIds j) {total dt wf : ℝ} {en : Bool} {mode : SolverMode}
    (h : j.runSimulation total dt wf en mode = .ok () k) (hdt : 0 < dt) (ht : 0 ≤ total) (hT : total / dt < 2 ^ 32)
    (hW : wf / dt < 2 ^ 32) :
    dt ≤ wf ∧ k.logLength = j.logLength + ⌈(⌊total / dt⌋₊ : ℚ) / ⌊wf / dt⌋₊⌉₊ ∧
    ∃ r m j1, j.getSolver mode ⌊total / dt⌋₊ = .ok (r, m) j1 ∧ k.layers = (steps r dt 0 ⌊total / dt⌋₊ j1).st.layers ∧
      k.log.col "time" = j.log.col "time" ++ (sampleSteps ⌊total / dt⌋₊ ⌊wf / dt⌋₊).map (fun i : Nat => (i : ℝ) * dt) := by
  obtain ⟨_, _, _, _, _, hw, -⟩ := Sim.run_inv h
  have hle : dt ≤ wf := by simpa using hw
  have hfl : 1 ≤ ⌊wf / dt⌋₊ := by rw [Nat.one_le_floor_iff]; rwa [one_le_div hdt]
  obtain ⟨N, W, r, m, j1, hN, hW', hg, hNW, hres, hlay, hlen, htime, -⟩ := C27_run hr hd h
  rw [toUInt_floor _ (div_nonneg ht hdt.le) (by norm_num at hT ⊢; exact hT)] at hN
  rw [toUInt_floor _ (div_nonneg (hdt.le.trans hle) hdt.le) (by norm_num at hW ⊢; exact hW)] at hW'
  cases hN; cases hW'
  refine ⟨hle, ?_, r, m, j1, hg, hlay, ?_⟩
  · rw [hlen, (C27_count _ _ hfl).1]
  · rw [htime]; simp

/-! ### Runs of quiet junctions succeed -/

/-- helper -/
theorem noiseless_draws (l : Layer T) (t : T) (h1 : l.temperatureSet = false) (h2 : Scalar.eqb l.noiseParams.scaleNoise 0 = true) :
    l.langevinVector t = .ok .zero l ∧ l.oneFVector = .ok .zero l := by
  constructor
  · unfold langevinVector; simp [h1]
  · unfold oneFVector; simp [h2]

/-- helper: steps of a quiet junction succeed if no number is NaN -/
theorem runStep_quiet_ok (hN : ∀ x : T, Scalar.isNan x = false) (j : Junction T) (hne : j.layers ≠ []) (hg : ∀ l ∈ j.layers, l.Guard)
    (hq : ∀ l ∈ j.layers, ¬ Noisy l) (r : Runner) (t dt : T) : ∃ k, j.runStep r t dt = .ok () k := by
  have hrk : ∀ (l : Layer T) (b a : CVec T), l.Guard → ∃ l', l.rk4Step t dt b a = .ok () l' := by
    intro l b a h
    obtain ⟨c, hc⟩ := l.rk4Step_ok t dt b a h
    rw [hc]
    simp [hN]
  cases r with
  | single =>
    unfold runStep runSingleLayerSolver
    dsimp only
    cases hl : j.layers with
    | nil => exact absurd hl hne
    | cons l ls =>
      obtain ⟨l', h⟩ := hrk l .zero .zero (hg l (by rw [hl]; simp))
      dsimp only
      rw [h]; exact ⟨_, rfl⟩
  | multi =>
    unfold runStep runMultiLayerSolver
    dsimp only
    obtain ⟨bs, as, h, -⟩ := Out.traverse_exists (fun i l => l.rk4Step t dt ((magCopies j.layers).getD i .zero)
      ((magCopies j.layers).getD (i + 2) .zero)) (fun _ _ _ _ => True) 0 j.layers (fun k a ha => by
        obtain ⟨l', h⟩ := hrk a ((magCopies j.layers).getD (0 + k) .zero) ((magCopies j.layers).getD (0 + k + 2) .zero)
          (hg a (List.mem_of_getElem? ha))
        exact ⟨(), l', h, trivial⟩)
    rw [h]; exact ⟨_, rfl⟩
  | heun =>
    unfold runStep heunSolverStep
    dsimp only
    obtain ⟨bs, as, h, hb, ha, hP⟩ := Out.traverse_exists (heunPredict (j.layers.map Layer.mag) t dt)
      (fun _ _ _ l' => l'.Guard) 0 j.layers (fun k l hl => by
        have hm := List.mem_of_getElem? hl
        obtain ⟨q1, q2⟩ := (quiet_iff l).1 (hq l hm)
        obtain ⟨c, hc⟩ := l.llg_ok t l.mag (below (j.layers.map Layer.mag) (0 + k)) (above (j.layers.map Layer.mag) (0 + k)) (hg l hm)
        unfold heunPredict
        rw [hc]
        simp only [Out.bind_ok]
        obtain ⟨e1, e2⟩ := noiseless_draws (l.setCache c) t q1 q2
        rw [e1]; simp only [Out.bind_ok]
        rw [e2]; simp only [Out.bind_ok]
        exact ⟨_, _, rfl, hg l hm⟩)
    rw [h]
    dsimp only [Out.ok]
    obtain ⟨bs', as', h', -⟩ := Out.traverse_exists (heunCorrect bs t dt) (fun _ _ _ _ => True) 0 as (fun k l hl => by
        have hk : k < as.length := (List.getElem?_eq_some_iff.1 hl).1
        have hkb : k < bs.length := by omega
        have hkj : k < j.layers.length := by omega
        have hG := hP k _ _ l (List.getElem?_eq_getElem hkj) (List.getElem?_eq_getElem hkb) hl
        unfold heunCorrect
        rw [Nat.zero_add, List.getElem?_eq_getElem hkb]
        dsimp only
        obtain ⟨c, hc⟩ := l.llg_ok (t + dt) bs[k].mNext (below (bs.map HeunStage.mNext) k) (above (bs.map HeunStage.mNext) k) hG
        rw [hc]
        exact ⟨_, _, rfl, trivial⟩)
    rw [h']; exact ⟨_, rfl⟩
  | eulerHeun =>
    unfold runStep eulerHeunSolverStep
    dsimp only
    obtain ⟨bs, as, h, hb, ha, hP⟩ := Out.traverse_exists (eulerHeunLayer (j.layers.map Layer.mag) t dt)
      (fun _ _ _ _ => True) 0 j.layers (fun k l hl => by
        have hm := List.mem_of_getElem? hl
        obtain ⟨q1, q2⟩ := (quiet_iff l).1 (hq l hm)
        obtain ⟨e1, e2⟩ := noiseless_draws l t q1 q2
        obtain ⟨c, hc⟩ := l.llg_ok t l.mag (below (j.layers.map Layer.mag) (0 + k)) (above (j.layers.map Layer.mag) (0 + k)) (hg l hm)
        unfold eulerHeunLayer
        rw [e1]; simp only [Out.bind_ok]
        rw [e2]; simp only [Out.bind_ok]
        rw [hc]; simp only [Out.bind_ok]
        exact ⟨_, _, rfl, trivial⟩)
    rw [h]; exact ⟨_, rfl⟩

/-- helper -/
theorem runStep_real_ok (j : Junction ℝ) (hne : j.layers ≠ []) (hg : ∀ l ∈ j.layers, l.Guard) (hq : ∀ l ∈ j.layers, ¬ Noisy l)
    (r : Runner) (t dt : ℝ) : ∃ k, j.runStep r t dt = .ok () k :=
  runStep_quiet_ok (fun _ => by simp) j hne hg hq r t dt

/-- helper -/
theorem Same_guard {l l' : Layer T} (h : Same l l') : l'.Guard ↔ l.Guard := by obtain ⟨m, d, g, e, n, rfl⟩ := h; rfl
/-- helper -/
theorem Same_noisy {l l' : Layer T} (h : Same l l') : Noisy l' ↔ Noisy l := by obtain ⟨m, d, g, e, n, rfl⟩ := h; rfl

/-- helper -/
theorem sames_all {P : Layer T → Prop} (hP : ∀ l l', Same l l' → P l → P l') {ls ls' : List (Layer T)}
    (h : List.Forall₂ Same ls ls') (ha : ∀ l ∈ ls, P l) : ∀ l ∈ ls', P l := by
  induction h with
  | nil => simp
  | cons hab _ ih =>
    intro l hl
    rcases List.mem_cons.1 hl with rfl | hl
    · exact hP _ _ hab (ha _ (by simp))
    · exact ih (fun l hl => ha l (List.mem_cons_of_mem _ hl)) l hl

/-- helper -/
theorem evolve_quiet_ok (hN : ∀ x : T, Scalar.isNan x = false) (r : Runner) (dt : T) (n i : Nat) (j : Junction T) (hne : j.layers ≠ [])
    (hg : ∀ l ∈ j.layers, l.Guard) (hq : ∀ l ∈ j.layers, ¬ Noisy l) : ∃ k, evolve r dt i n j = .ok () k := by
  induction n generalizing i j with
  | zero => exact ⟨j, rfl⟩
  | succ n ih =>
    obtain ⟨k, hk⟩ := runStep_quiet_ok hN j hne hg hq r (Scalar.lit (i : ℚ) * dt) dt
    have hs := runStep_same j r (Scalar.lit (i : ℚ) * dt) dt
    rw [hk] at hs
    dsimp only [Out.ok] at hs
    obtain ⟨k2, hk2⟩ := ih (i + 1) k (fun h => hne (List.length_eq_zero_iff.1 (by rw [hs.length_eq, h]; rfl)))
      (sames_all (fun _ _ h => (Same_guard h).2) hs hg) (sames_all (fun _ _ h => (not_congr (Same_noisy h)).2) hs hq)
    exact ⟨k2, by unfold evolve; rw [hk, Out.bind_ok, hk2]⟩

/-- C27 for every arithmetic without NaN: a run of a noise-free junction with sensible times never raises. -/
theorem C27_completes_any (hN : ∀ x : T, Scalar.isNan x = false) (j : Junction T) (hr : Reachable j) (hg : ∀ l ∈ j.layers, l.Guard)
    (hq : ∀ l ∈ j.layers, ¬ Noisy l) (total dt wf : T) (en : Bool) (mode : SolverMode) (hw : Scalar.ltb wf dt = false) {N W : Nat}
    (h1 : Scalar.toUInt (total / dt) = some N) (h2 : Scalar.toUInt (wf / dt) = some W) (hW : W ≠ 0) :
    ∃ k, j.runSimulation total dt wf en mode = .ok () k := by
  unfold runSimulation
  rw [if_neg (by rw [hw]; decide), h1, h2]
  dsimp only
  rw [solver_quiet j hq]
  obtain ⟨k, hk⟩ := evolve_quiet_ok hN (pickRunner j.layers.length mode) dt N 0 j (reachable_nonempty hr) hg hq
  obtain ⟨k', hk', -⟩ := evolve_runLoop _ dt W en hk rfl (by omega) (Reachable_inv hr).1
  exact ⟨k', hk'⟩

/-- C27: on a noise-free junction whose layers have `Ms·thickness ≠ 0` a run with sensible times never raises. -/
theorem C27_completes (j : Junction ℝ) (hr : Reachable j) (hg : ∀ l ∈ j.layers, l.Ms * l.thickness ≠ 0)
    (hq : ∀ l ∈ j.layers, ¬ Noisy l) (total dt wf : ℝ) (en : Bool) (mode : SolverMode) (hdt : 0 < dt) (ht : 0 ≤ total)
    (hT : total / dt < 2 ^ 32) (hle : dt ≤ wf) (hW : wf / dt < 2 ^ 32) :
    ∃ k, j.runSimulation total dt wf en mode = .ok () k := by
  have hg' : ∀ l ∈ j.layers, l.Guard := fun l hl => by simpa [Guard] using hg l hl
  have hfl : 1 ≤ ⌊wf / dt⌋₊ := by rw [Nat.one_le_floor_iff]; rwa [one_le_div hdt]
  exact C27_completes_any (fun _ => by simp) j hr hg' hq total dt wf en mode (by simpa using hle)
    (toUInt_floor _ (div_nonneg ht hdt.le) (by norm_num at hT ⊢; exact hT))
    (toUInt_floor _ (div_nonneg (hdt.le.trans hle) hdt.le) (by norm_num at hW ⊢; exact hW)) (by omega)

/-! ### C31 -/

/-- the integrator a request amounts to -/
inductive Integrator | rk4 | heun | eulerHeun
  deriving DecidableEq

/-- The integrator that the property says is used, given the request and whether some layer is noisy. -/
def Integrator.expected (noisy : Prop) [Decidable noisy] : SolverMode → Integrator
  | .HEUN => .heun
  | .EULER_HEUN => .eulerHeun
  | .RK4 => if noisy then .eulerHeun else .rk4
  | .DORMAND_PRICE => if noisy then .eulerHeun else .rk4

/-- The solver function a runner pointer calls. -/
def Runner.integrator : Runner → Integrator
  | .single => .rk4
  | .multi => .rk4
  | .heun => .heun
  | .eulerHeun => .eulerHeun

open Classical in
/-- C31: the integrator is the requested one unless some layer is noisy and the request is RK4 or Dormand–Prince, in
which case it is Euler–Heun; a Dormand–Prince request without noise is executed as RK4. -/
theorem C31_integrator {j j1 : Junction T} {mode m : SolverMode} {n : Nat} {r : Runner}
    (h : j.getSolver mode n = .ok (r, m) j1) :
    r.integrator = Integrator.expected (∃ l ∈ j.layers, Noisy l) mode ∧ (r = .single → j.layers.length = 1) ∧
    (r = .multi → j.layers.length ≠ 1) := by
  unfold getSolver at h
  rcases hs : solverLoop n mode j.layers with ⟨_ | m', ls⟩
  · rw [hs] at h; simp [Out.ok, Out.fail] at h
  · rw [hs] at h
    simp only [Out.ok, Out.mk.injEq, Except.ok.injEq, Prod.mk.injEq] at h
    obtain ⟨⟨rfl, rfl⟩, -⟩ := h
    obtain ⟨h1, -⟩ := solverLoop_ok n hs
    rw [h1]
    have hn : j.layerNo = j.layers.length := rfl
    rw [hn]
    unfold pickRunner noisyMode
    by_cases hN : ∃ l ∈ j.layers, Noisy l <;> by_cases hl : j.layers.length = 1 <;> cases mode <;>
      simp [hN, hl, Integrator.expected, Runner.integrator]

/-- helper -/
theorem solverLoop_dp (n : Nat) (ls : List (Layer T)) :
    solverLoop n .DORMAND_PRICE ls = solverLoop n .RK4 ls ∨
    (∃ ls', solverLoop n .DORMAND_PRICE ls = .ok .DORMAND_PRICE ls' ∧ solverLoop n .RK4 ls = .ok .RK4 ls') := by
  induction ls with
  | nil => exact .inr ⟨_, rfl, rfl⟩
  | cons l ls ih =>
    unfold solverLoop
    dsimp only
    by_cases hs : Scalar.eqb l.noiseParams.scaleNoise 0 = true
    · rw [if_pos hs, if_pos hs]
      by_cases ht : l.temperatureSet = true
      · left; simp [ht, noisyMode]
      · simp only [ht, Bool.false_eq_true, if_false]
        rcases ih with h | ⟨ls', h1, h2⟩
        · left; rw [h]
        · right; rw [h1, h2]; exact ⟨_, rfl, rfl⟩
    · left
      rw [if_neg hs, if_neg hs]
      have : noisyMode (if l.temperatureSet = true then noisyMode .DORMAND_PRICE else .DORMAND_PRICE) =
          noisyMode (if l.temperatureSet = true then noisyMode .RK4 else .RK4) := by split <;> rfl
      rw [this]

/-- helper -/
theorem solverLoop_noisy (n : Nat) (ls : List (Layer T)) (h : ∃ l ∈ ls, Noisy l) :
    solverLoop n .RK4 ls = solverLoop n .EULER_HEUN ls := by
  induction ls with
  | nil => simp at h
  | cons l ls ih =>
    unfold solverLoop
    dsimp only
    by_cases hs : Scalar.eqb l.noiseParams.scaleNoise 0 = true
    · rw [if_pos hs, if_pos hs]
      by_cases ht : l.temperatureSet = true
      · simp [ht, noisyMode]
      · simp only [ht]
        have : ∃ l ∈ ls, Noisy l := by
          obtain ⟨x, hx, hn⟩ := h
          rcases List.mem_cons.1 hx with rfl | hx
          · rcases hn with hn | hn
            · exact absurd hn ht
            · rw [hs] at hn; cases hn
          · exact ⟨x, hx, hn⟩
        simp [ih this]
    · rw [if_neg hs, if_neg hs]
      have : noisyMode (if l.temperatureSet = true then noisyMode .RK4 else .RK4) =
          noisyMode (if l.temperatureSet = true then noisyMode .EULER_HEUN else .EULER_HEUN) := by split <;> rfl
      rw [this]

/-- C31: a Dormand–Prince request runs exactly as an RK4 request, noisy or not, successful or not. -/
theorem C31_dormand_prince (j : Junction T) (total dt wf : T) (en : Bool) :
    j.runSimulation total dt wf en .DORMAND_PRICE = j.runSimulation total dt wf en .RK4 := by
  have key : ∀ n, (j.getSolver .DORMAND_PRICE n = j.getSolver .RK4 n) ∨
      ∃ r j1, j.getSolver .DORMAND_PRICE n = .ok (r, .DORMAND_PRICE) j1 ∧ j.getSolver .RK4 n = .ok (r, .RK4) j1 := by
    intro n
    unfold getSolver
    rcases solverLoop_dp n j.layers with h | ⟨ls', h1, h2⟩
    · left; rw [h]
    · right
      rw [h1, h2]
      exact ⟨pickRunner j.layerNo .RK4, _, rfl, rfl⟩
  unfold runSimulation
  split
  · rfl
  · split
    · rename_i N W _ _
      rcases key N with h | ⟨r, j1, h1, h2⟩
      · rw [h]
      · rw [h1, h2]; rfl
    · rfl

/-- C31: with a noisy layer an RK4 request runs exactly as an Euler–Heun request. -/
theorem C31_noisy (j : Junction T) (h : ∃ l ∈ j.layers, Noisy l) (total dt wf : T) (en : Bool) :
    j.runSimulation total dt wf en .RK4 = j.runSimulation total dt wf en .EULER_HEUN := by
  unfold runSimulation getSolver
  simp only [solverLoop_noisy _ _ h]

/-! ### The hypotheses can be met -/

/-- helper: two layers with distinct names -/
noncomputable def twoLayers : List (Layer ℝ) := [quietLayer, { quietLayer with id := "bottom" }]

/-- helper: a classic junction of two layers, as built by the constructor -/
noncomputable def builtJ : Junction ℝ :=
  { demoJ with mrMode := .CLASSIC, layers := twoLayers, Rp := 100, Rap := 200, Rtag := "R_free_bottom" }

/-- helper -/
theorem built_reachable : Reachable builtJ := by
  refine ⟨builtJ, [], .inr (.inl ⟨twoLayers, 100, 200, ?_⟩), rfl⟩
  simp [classic, plain, twoLayers, builtJ, demoJ, quietLayer, plainOf, Layer.demo]

example : Reachable builtJ ∧ DistinctIds builtJ ∧ builtJ.mrMode ≠ .NONE ∧ (∀ l ∈ builtJ.layers, l.Ms * l.thickness ≠ 0) ∧
    (∀ l ∈ builtJ.layers, ¬ Noisy l) := by
  refine ⟨built_reachable, by simp [DistinctIds, builtJ, twoLayers, quietLayer, plainOf, Layer.demo], by simp [builtJ], ?_, ?_⟩
  · simp [builtJ, twoLayers, quietLayer, plainOf, Layer.demo]
  · simp [builtJ, twoLayers, quietLayer, plainOf, Layer.demo, Noisy]

/-- a run with seven steps of which every third is logged -/
example : ∃ k, builtJ.runSimulation 7 1 3 false .RK4 = .ok () k ∧ k.logLength = 3 := by
  obtain ⟨k, hk⟩ := C27_completes builtJ built_reachable (by simp [builtJ, twoLayers, quietLayer, plainOf, Layer.demo])
    (by simp [builtJ, twoLayers, quietLayer, plainOf, Layer.demo, Noisy]) 7 1 3 false .RK4 (by norm_num) (by norm_num)
    (by norm_num) (by norm_num) (by norm_num)
  refine ⟨k, hk, ?_⟩
  have := (C27_real built_reachable (by simp [DistinctIds, builtJ, twoLayers, quietLayer, plainOf, Layer.demo]) hk
    (by norm_num) (by norm_num) (by norm_num) (by norm_num)).2.1
  rw [this]
  have h1 : ⌊(7 : ℝ) / 1⌋₊ = 7 := by rw [div_one]; exact_mod_cast Nat.floor_natCast 7
  have h2 : ⌊(3 : ℝ) / 1⌋₊ = 3 := by rw [div_one]; exact_mod_cast Nat.floor_natCast 3
  rw [h1, h2]
  have h3 : ⌈((7 : Nat) : ℚ) / ((3 : Nat) : ℚ)⌉₊ = 3 := by rw [← (C27_count 7 3 (by norm_num)).1]; rfl
  rw [h3]; rfl

example : ∃ l ∈ mixedJ.layers, Noisy l := ⟨coldLayer, by simp [mixedJ], .inl rfl⟩

end Junction
