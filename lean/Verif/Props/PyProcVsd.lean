import Verif.Props.PyProcScan
import Verif.Props.Resistance
import Verif.Props.StackExamples

set_option linter.unusedSectionVars false

/-!
# C63 and C90: the spin-diode procedure
-/

namespace Proc
open Spec

/-! ### The filter -/

theorem zipSum (b l : List ℝ) : (List.zipWith (· * ·) b l).foldl (· + ·) (@OfNat.ofNat ℝ 0 (Scalar.instOfNat 0)) =
    ∑ k ∈ Finset.range l.length, b.getD k 0 * l.getD k 0 := by
  have h0 : (@OfNat.ofNat ℝ 0 (Scalar.instOfNat 0)) = (0 : ℝ) := by simp
  rw [h0, ← List.sum_eq_foldl]
  induction l generalizing b with
  | nil => simp
  | cons a l ih =>
    cases b with
    | nil => simp
    | cons c b =>
      rw [List.zipWith_cons_cons, List.sum_cons, ih, List.length_cons, Finset.sum_range_succ']
      simp [add_comm]

theorem lfilter_length (b c xs ys rest : List ℝ) : (lfilterFrom b c xs ys rest).length = rest.length := by
  induction rest generalizing xs ys with
  | nil => rfl
  | cons x rest ih => simp [lfilterFrom, ih]

/-- Entry `n` of the output, from the inputs up to `n` and the outputs before. -/
theorem lfilter_get (b c rest xs ys : List ℝ) (n : ℕ) (hn : n < rest.length) :
    (lfilterFrom b c xs ys rest).getD n 0 =
      (∑ k ∈ Finset.range (n + 1 + xs.length), b.getD k 0 * ((rest.take (n + 1)).reverse ++ xs).getD k 0 -
        ∑ k ∈ Finset.range (n + ys.length), c.getD (k + 1) 0 * (((lfilterFrom b c xs ys rest).take n).reverse ++ ys).getD k 0) / c.getD 0 1 := by
  induction rest generalizing xs ys n with
  | nil => simp at hn
  | cons x rest ih =>
    cases n with
    | zero =>
      simp only [lfilterFrom, List.getD_cons_zero, zipSum]
      simp [add_comm]
    | succ n =>
      simp only [lfilterFrom, List.getD_cons_succ]
      generalize ((List.zipWith (· * ·) b (x :: xs)).foldl (· + ·) _ - (List.zipWith (· * ·) (c.drop 1) ys).foldl (· + ·) _) / _ = y
      have h := ih (x :: xs) (y :: ys) n (by simpa using hn)
      simp only [List.take_succ_cons, List.reverse_cons, List.append_assoc, List.singleton_append]
      refine Eq.trans h ?_
      simp only [List.length_cons]
      rw [show n + 1 + (xs.length + 1) = n + 1 + 1 + xs.length by omega, show n + (ys.length + 1) = n + 1 + ys.length by omega]

/-- scipy's filter, as modelled, solves its difference equation. -/
theorem lfilter_response (b c x : List ℝ) (hc : c.getD 0 0 ≠ 0) : FilterResponse b c x (lfilter b c x) := by
  refine ⟨lfilter_length _ _ _ _ _, fun n hn => ?_⟩
  have hlen := lfilter_length b c [] [] x
  have h := lfilter_get b c x [] [] n hn
  change (lfilter b c x).getD n 0 = _ at h
  change (lfilter b c x).length = _ at hlen
  change _ = (_ - ∑ k ∈ _, _ * (((lfilter b c x).take n).reverse ++ []).getD k 0) / _ at h
  have hc0 : c.getD 0 1 = c.getD 0 0 := by
    cases c with
    | nil => simp at hc
    | cons a c => rfl
  rw [hc0, eq_div_iff hc] at h
  simp only [List.append_nil, List.length_nil, Nat.add_zero] at h
  have hx : ∀ k ∈ Finset.range (n + 1), b.getD k 0 * (x.take (n + 1)).reverse.getD k 0 = b.getD k 0 * x.getD (n - k) 0 := by
    intro k hk
    have hk : k < n + 1 := by simpa using hk
    congr 1
    simp only [List.getD_eq_getElem?_getD]
    congr 1
    rw [List.getElem?_reverse (by simp; omega), List.getElem?_take]
    simp only [List.length_take]
    rw [show min (n + 1) x.length - 1 - k = n - k by omega, if_pos (by omega)]
  have hy : ∀ k ∈ Finset.range n, c.getD (k + 1) 0 * ((lfilter b c x).take n).reverse.getD k 0 =
      c.getD (k + 1) 0 * (lfilter b c x).getD (n - (k + 1)) 0 := by
    intro k hk
    have hk : k < n := by simpa using hk
    congr 1
    simp only [List.getD_eq_getElem?_getD]
    congr 1
    rw [List.getElem?_reverse (by simp; omega), List.getElem?_take]
    simp only [List.length_take]
    rw [show min n (lfilter b c x).length - 1 - k = n - (k + 1) by omega, if_pos (by omega)]
  rw [Finset.sum_congr rfl hx, Finset.sum_congr rfl hy] at h
  rw [Finset.sum_range_succ' (fun k => c.getD k 0 * (lfilter b c x).getD (n - k) 0)]
  rw [Nat.sub_zero]
  linarith

/-- The response is unique. -/
theorem response_unique (b c x y z : List ℝ) (hc : c.getD 0 0 ≠ 0) (hy : FilterResponse b c x y) (hz : FilterResponse b c x z) : y = z := by
  obtain ⟨h1, h2⟩ := hy
  obtain ⟨h3, h4⟩ := hz
  have key : ∀ n, n < x.length → y.getD n 0 = z.getD n 0 := by
    intro n
    induction n using Nat.strong_induction_on with
    | _ n ih =>
      intro hn
      have e := (h2 n hn).trans (h4 n hn).symm
      rw [Finset.sum_range_succ', Finset.sum_range_succ'] at e
      have e2 : ∑ k ∈ Finset.range n, c.getD (k + 1) 0 * y.getD (n - (k + 1)) 0 = ∑ k ∈ Finset.range n, c.getD (k + 1) 0 * z.getD (n - (k + 1)) 0 := by
        refine Finset.sum_congr rfl fun k hk => ?_
        have hk : k < n := by simpa using hk
        rw [ih (n - (k + 1)) (by omega) (by omega)]
      rw [e2] at e
      exact mul_left_cancel₀ hc (add_left_cancel e)
  apply List.ext_getElem (by rw [h1, h3])
  intro n hn1 hn2
  have := key n (by omega)
  simpa [hn1, hn2] using this

/-- The cutoff relative to the Nyquist frequency. -/
def cutoff {T : Type} [Scalar T] (dt : T) : T := 10e6 / (0.5 * (1.0 / dt))

theorem cutoff_eq (dt : ℝ) : cutoff dt = 2 * 10 ^ 7 * dt := by
  unfold cutoff
  simp only [Scalar.ofSci_real_true, Scalar.ofSci_real_false]
  rcases eq_or_ne dt 0 with rfl | h0
  · simp
  · field_simp; norm_num

/-- `compute_sd`: the mean of the filtered product. -/
theorem computeSd_eq (butter : ℝ → Except Err (List ℝ × List ℝ)) (r i : List ℝ) (dt : ℝ) (hl : r.length = i.length) :
    computeSd butter r i dt = match butter (2 * 10 ^ 7 * dt) with
      | .error e => .error e
      | .ok (b, c) => .ok ((lfilter b c (List.zipWith (fun i r => -i * r) i r)).sum / i.length) := by
  unfold computeSd
  rw [if_neg (by simpa using hl)]
  dsimp only
  rcases hb : butter (2 * 10 ^ 7 * dt) with e | ⟨b, c⟩ <;> rw [← cutoff_eq] at hb <;> unfold cutoff at hb <;> rw [hb]
  have hlen := lfilter_length b c [] [] (List.zipWith (fun i r => -i * r) i r)
  change (lfilter b c _).length = _ at hlen
  dsimp only
  rw [List.sum_eq_foldl, hlen]
  simp [hl]

theorem diode_eq (f dt : ℝ) (N : ℕ) (R : List ℝ) (hR : R.length = N) :
    List.zipWith (fun i r => -i * r) (((List.range N).map fun i : ℕ => (i : ℝ) * dt).map fun t => Real.sin (2 * Real.pi * f * t)) R =
      diodeSignal f dt R := by
  unfold diodeSignal
  apply List.ext_getElem (by simp [hR])
  intro i h1 h2
  simp

/-! ### Columns -/

/-- A name that is not among the columns has no data. -/
theorem column_absent {s k : Junction ℝ} (hr : Reachable s) (hlog : s.log = []) {T dt wf : ℝ} {mode : SolverMode}
    (h : s.runSimulation T dt wf false mode = .ok () k) (key : String) (hkey : key ∉ Spec.columns false s) : k.log.col key = [] := by
  obtain ⟨hm, hR⟩ := Junction.Reachable_inv hr
  obtain ⟨N, W, r, m, j1, -, -, -, hg, -, hl, -⟩ := Junction.runSimulation_log hm h
  have hs1 : List.Forall₂ Layer.Same s.layers j1.layers := by
    have := Junction.getSolver_same s mode N; rw [hg] at this; exact this
  rw [hl, hlog, Log.col_pushAll, Log.vals_flatMap, Junction.logged_eq]
  have : ∀ p ∈ (sampleSteps N W).map (fun m => ((steps r dt 0 (m + 1) j1).st.layers, (Scalar.lit (m : ℚ) * dt : ℝ))),
      Log.vals (Junction.rowOf s false p) key = [] := by
    simp only [List.mem_map]
    rintro p ⟨i, -, rfl⟩
    apply Log.vals_none
    intro hmem
    refine hkey ?_
    rw [← Junction.row_columns s false (steps r dt 0 (i + 1) j1).st.layers (Scalar.lit (i : ℚ) * dt) hm hR ?_ (by simp)]
    · exact hmem
    · rw [Junction.steps_eq_evolve]; exact Junction.sames_trans hs1 (Junction.evolve_same r dt _ 0 j1)
  rw [List.flatMap_eq_nil_iff.2 this]
  rfl

theorem no_underscore (id suf : String) (h : '_' ∈ suf.toList) : "Resistance" ≠ id ++ suf := by
  intro e
  have h1 : '_' ∈ ("Resistance" : String).toList := by rw [e]; simp [h]
  revert h1
  decide

/-- One layer: there is no column "Resistance". -/
theorem resistance_absent {s : Junction ℝ} {i : String} (h : s.layers.map Layer.id = [i]) : "Resistance" ∉ Spec.columns false s := by
  unfold Spec.columns resistanceNames
  rw [h]
  cases s.mrMode <;> simp [Spec.layerColumns, no_underscore]

theorem classic_two (s : Junction ℝ) (hmode : s.mrMode = .CLASSIC) (ls : List (Layer ℝ)) (hlen : ls.length = 2) (v : List ℝ)
    (h : ({ s with layers := ls } : Junction ℝ).getMagnetoresistance = .ok v) :
    v[0]? = some (classicR s.Rp s.Rap (magOf ls 0) (magOf ls 1)) := by
  obtain ⟨a, b, rfl⟩ := List.length_eq_two.1 hlen
  have e : ({ s with layers := [a, b] } : Junction ℝ).getMagnetoresistance = .ok [s.calculateMagnetoresistance (a.mag.dot b.mag)] := by
    unfold Junction.getMagnetoresistance
    dsimp only
    rw [hmode]
    rfl
  rw [e] at h
  cases h
  simp only [List.getElem?_cons_zero, Option.some.injEq, Junction.calculateMagnetoresistance, classicR, magOf, CVec.dot,
        Scalar.ofSci_real_true, List.getElem?_cons_succ]
  norm_num
  ring

/-- The resistance column of a classic junction of two layers. -/
theorem resistance_column {s k : Junction ℝ} (hr : Reachable s) (hlog : s.log = []) (hmode : s.mrMode = .CLASSIC) {i0 i1 : String}
    (hids : s.layers.map Layer.id = [i0, i1]) {T dt : ℝ} (hdt : 0 < dt) (hT : 0 ≤ T) (hb : T / dt < 2 ^ 32)
    (h : s.runSimulation T dt dt false .RK4 = .ok () k) {M : ℕ → ℕ → CVec ℝ} (hM : Trajectory s k dt ⌊T / dt⌋₊ M) :
    k.log.col ("R_" ++ i0 ++ "_" ++ i1) = (List.range ⌊T / dt⌋₊).map fun i => classicR s.Rp s.Rap (M (i + 1) 0) (M (i + 1) 1) := by
  obtain ⟨N, W, r, m, j1, v, hN, hW, hg, hv, hcol⟩ := Junction.C27_resistance hr (by rw [hmode]; simp) h
  have hW1 : Scalar.toUInt (dt / dt) = some 1 := by
    rw [div_self hdt.ne', Junction.toUInt_floor 1 (by norm_num) (by norm_num)]
    simp
  have hN1 := Junction.toUInt_floor (T / dt) (div_nonneg hT hdt.le) (by norm_num at hb ⊢; exact hb)
  rw [hN1] at hN
  cases hN
  rw [hW1] at hW
  cases hW
  obtain ⟨r', m', s1, hg', -, -, hM⟩ := hM
  rw [hg] at hg'
  cases hg'
  have hc := hcol 0 ("R_" ++ i0 ++ "_" ++ i1) (by unfold resistanceNames; rw [hmode, hids]; rfl)
  have hs1 : List.Forall₂ Layer.Same s.layers j1.layers := by
    have := Junction.getSolver_same s .RK4 ⌊T / dt⌋₊; rw [hg] at this; exact this
  have hval : ∀ i, (v i)[0]? = some (classicR s.Rp s.Rap (M (i + 1) 0) (M (i + 1) 1)) := by
    intro i
    have hs2 : List.Forall₂ Layer.Same s.layers (steps r dt 0 (i + 1) j1).st.layers := by
      rw [Junction.steps_eq_evolve]; exact Junction.sames_trans hs1 (Junction.evolve_same r dt _ 0 j1)
    have hlen := hs2.length_eq
    have h2 : s.layers.length = 2 := by simpa using congrArg List.length hids
    have hvi := hv i
    rw [hM, hM]
    exact classic_two s hmode _ (hlen.symm.trans h2) _ hvi
  rw [hlog, sampleSteps_one] at hc
  simp only [hval] at hc
  have hc' : (k.log.col ("R_" ++ i0 ++ "_" ++ i1)).map some =
      ((List.range ⌊T / dt⌋₊).map fun i => classicR s.Rp s.Rap (M (i + 1) 0) (M (i + 1) 1)).map some := by
    rw [hc]; simp [Log.col]
  exact (List.map_injective_iff.2 (Option.some_injective _)) hc'

/-! ### The read-out -/

/-- The resistance the procedure reads. -/
def ReadR (a : VsdArgs ℝ) (j : Junction ℝ) (N : ℕ) (M : ℕ → ℕ → CVec ℝ) (R : List ℝ) : Prop :=
  (a.rtype = "Rz" → j.layers.length = 2 ∧
    (j.mrMode = .CLASSIC → R = (List.range N).map fun i => classicR j.Rp j.Rap (M (i + 1) 0) (M (i + 1) 1))) ∧
  (a.rtype ≠ "Rz" → ∃ Rx Ry, resistances a.resFn a.params (samples j.layers N M) = .ok (Rx, Ry) ∧
    (a.rtype = "Rx" ∧ R = Rx ∨ a.rtype = "Ry" ∧ R = Ry))

/-- The samples as the procedure collects them. -/
theorem samples_ok {j0 k : Junction ℝ} (hs : Scanned j0 k) {dt : ℝ} {N : ℕ} {M : ℕ → ℕ → CVec ℝ} (h : Data k dt N M) (hN : 0 < N) :
    collect (Proc.layerColumns k.log) (j0.layers.map Layer.id) = .ok (samples j0.layers N M) ∧
      asArray (samples j0.layers N M) = .ok (samples j0.layers N M) := by
  have e : samples j0.layers N M = (j0.layers.map Layer.id).mapIdx fun q _ => (List.range N).map fun i => M (i + 1) q := by
    unfold samples
    apply List.ext_getElem (by simp)
    intro q h1 h2
    simp
  rw [e]
  refine ⟨collect_ok _ _ _ fun q id hq => ?_, asArray_ok _ _ N (by simp)⟩
  rw [← hs.ids, List.getElem?_map] at hq
  obtain ⟨l, hl, rfl⟩ := Option.map_eq_some_iff.1 hq
  obtain ⟨h1, h2, h3⟩ := h.cols q l hl
  exact layerColumns_ok h.tidy hN h1 h2 h3

theorem samples_none {j0 k : Junction ℝ} (hs : Scanned j0 k) {dt : ℝ} {M : ℕ → ℕ → CVec ℝ} (h : Data k dt 0 M) :
    collect (Proc.layerColumns k.log) (j0.layers.map Layer.id) = .error .keyError := by
  rw [← hs.ids]
  have hne := Junction.reachable_nonempty hs.reach
  rcases hl : k.layers with _ | ⟨l, ls⟩
  · exact absurd hl hne
  obtain ⟨h1, -, -⟩ := h.cols 0 l (by rw [hl]; rfl)
  have : Proc.layerColumns k.log l.id = .error .keyError := by
    unfold Proc.layerColumns
    rw [lookup_tidy h.tidy, if_pos (by simpa using h1)]
  simp only [List.map_cons, collect, this]

/-- One measurement and its read-out. -/
theorem vsd_entry {j0 j k : Junction ℝ} (hs : Scanned j0 j) (hd : DistinctIds j0) (hall : ∀ l ∈ j0.layers, l.id ≠ "all") (a : VsdArgs ℝ)
    (hdt : 0 < a.dt) (hT : 0 ≤ a.duration) (hb : a.duration / a.dt < 2 ^ 32) (noise : ℕ → CVec ℝ) (H : CVec ℝ) (f v : ℝ)
    (h : simulateVsd a (j0.layers.map Layer.id) noise H f j = .ok v k) :
    Scanned j0 k ∧ 0 < ⌊a.duration / a.dt⌋₊ ∧ ∃ (d : ScalarDriver ℝ) (M : ℕ → ℕ → CVec ℝ) (R b c : List ℝ),
      (∀ t, d.value t = a.excitation * Real.sin (2 * Real.pi * f * t)) ∧
      Trajectory (prepared j H (onlyAlong a.axis d) (fun q l => kicked a.disturbance (noise q) l)) k a.dt ⌊a.duration / a.dt⌋₊ M ∧
      R.length = ⌊a.duration / a.dt⌋₊ ∧ ReadR a j0 ⌊a.duration / a.dt⌋₊ M R ∧ a.butter (2 * 10 ^ 7 * a.dt) = .ok (b, c) ∧
      v = (lfilter b c (diodeSignal f a.dt R)).sum / ⌊a.duration / a.dt⌋₊ := by
  unfold simulateVsd at h
  rcases hdr : ScalarDriver.sineDriver (@OfNat.ofNat ℝ 0 (Scalar.instOfNat 0)) a.excitation f (@OfNat.ofNat ℝ 0 (Scalar.instOfNat 0)) with e | d
  · rw [hdr] at h; simp [Out.fail, Out.ok] at h
  rw [hdr] at h
  dsimp only at h
  rcases hm : measure j (j0.layers.map Layer.id) H (onAxis a.axis d) a.disturbance noise a.duration a.dt with ⟨_ | _, j1⟩
  · rw [hm] at h; simp [Out.bind, Out.ok] at h
  rw [hm] at h
  simp only [Out.bind] at h
  rcases hro : vsdRead a (j0.layers.map Layer.id) j1 f with e | w
  · rw [hro] at h; simp [Out.fail, Out.ok] at h
  rw [hro] at h
  simp only [Out.ok, Out.mk.injEq, Except.ok.injEq] at h
  obtain ⟨rfl, rfl⟩ := h
  obtain ⟨hs1, M, hM, hdata⟩ := measure_data hs hd hall hdt hT hb hm
  have hN : 0 < ⌊a.duration / a.dt⌋₊ := by
    rcases Nat.eq_zero_or_pos ⌊a.duration / a.dt⌋₊ with h0 | h0
    · rw [h0] at hdata
      unfold vsdRead at hro
      rw [samples_none hs1 hdata] at hro
      cases hro
    · exact h0
  have hoe : onlyAlong a.axis d = onAxis a.axis d := by cases a.axis <;> rfl
  rw [← hoe] at hM hm
  have hdv : ∀ t, d.value t = a.excitation * Real.sin (2 * Real.pi * f * t) := fun t => by
    have := (ScalarDriver.C06_sine 0 a.excitation f 0 t d (by simpa using hdr)).1
    simpa using this
  obtain ⟨hc1, hc2⟩ := samples_ok hs1 hdata hN
  unfold vsdRead at hro
  rw [hc1] at hro
  dsimp only at hro
  rw [hc2] at hro
  dsimp only at hro
  rcases hR : vsdResistance a (j0.layers.map Layer.id) j1 (samples j0.layers ⌊a.duration / a.dt⌋₊ M) with e | R
  · rw [hR] at hro; cases hro
  rw [hR, lookup_ok hdata.tidy hN hdata.time] at hro
  dsimp only at hro
  have hlen : R.length = ⌊a.duration / a.dt⌋₊ := by
    unfold computeSd at hro
    split at hro
    · cases hro
    rename_i hl
    simpa using not_not.1 hl
  simp only [Scalar.sin_real, Scalar.pi_real, Scalar.ofNat_real, Nat.cast_ofNat] at hro
  rw [computeSd_eq _ _ _ _ (by simp [hlen]), diode_eq _ _ _ _ hlen] at hro
  rcases hbt : a.butter (2 * 10 ^ 7 * a.dt) with e | ⟨b, c⟩
  · rw [hbt] at hro; cases hro
  rw [hbt] at hro
  simp only [List.length_map, List.length_range, Except.ok.injEq] at hro
  refine ⟨hs1, hN, d, M, R, b, c, hdv, hM, hlen, ⟨fun hz => ?_, fun hz => ?_⟩, rfl, hro.symm⟩
  · unfold vsdResistance at hR
    rw [if_pos hz] at hR
    rw [← hs.ids] at hm
    obtain ⟨hrun, hrs⟩ := measure_spec hs.reach (hs.distinct hd) (hs.notAll hall) hm
    have hpid := (ids_of_rigid (prepared_rigid j H (onlyAlong a.axis d) (fun q l => kicked a.disturbance (noise q) l))).trans hs.ids
    rcases hi : j0.layers.map Layer.id with _ | ⟨i0, _ | ⟨i1, _ | ⟨i2, is⟩⟩⟩
    · rw [hi] at hR; cases hR
    · rw [hi] at hR
      simp only at hR
      rw [lookup_tidy hdata.tidy, if_pos (column_absent hrs rfl hrun _ (resistance_absent (hpid.trans hi)))] at hR
      cases hR
    · refine ⟨by simpa using congrArg List.length hi, fun hmode => ?_⟩
      rw [hi] at hR
      simp only at hR
      have hcol := resistance_column hrs rfl (by rw [← hmode]; exact hs.params.1.symm) (hpid.trans hi) hdt hT hb hrun hM
      rw [lookup_ok hdata.tidy hN hcol] at hR
      simp only [Except.ok.injEq] at hR
      rw [← hR, hs.params.2.1, hs.params.2.2.1]
      rfl
    · rw [hi] at hR; cases hR
  · unfold vsdResistance at hR
    rw [if_neg hz] at hR
    rcases hx : resistances a.resFn a.params (samples j0.layers ⌊a.duration / a.dt⌋₊ M) with e | ⟨Rx, Ry⟩
    · rw [hx] at hR; cases hR
    rw [hx] at hR
    simp only at hR
    refine ⟨Rx, Ry, rfl, ?_⟩
    split at hR
    · rename_i h1; cases hR; exact .inl ⟨h1, rfl⟩
    split at hR
    · rename_i h1; cases hR; exact .inr ⟨h1, rfl⟩
    · cases hR

/-! ### The grid -/

theorem vsdRow_spec {j0 : Junction ℝ} (hd : DistinctIds j0) (hall : ∀ l ∈ j0.layers, l.id ≠ "all") (a : VsdArgs ℝ) (hdt : 0 < a.dt)
    (hT : 0 ≤ a.duration) (hb : a.duration / a.dt < 2 ^ 32) (noise : ℕ → ℕ → CVec ℝ) (H : CVec ℝ) (fs : List ℝ) (n : ℕ)
    (j k : Junction ℝ) (hs : Scanned j0 j) (row : List ℝ) (h : vsdRow a (j0.layers.map Layer.id) noise H n fs j = .ok row k) :
    row.length = fs.length ∧ ∃ J : ℕ → Junction ℝ, J 0 = j ∧ J fs.length = k ∧ (∀ i, i ≤ fs.length → Scanned j0 (J i)) ∧
      ∀ i f v, fs[i]? = some f → row[i]? = some v →
        simulateVsd a (j0.layers.map Layer.id) (noise (n + i)) H f (J i) = .ok v (J (i + 1)) := by
  induction fs generalizing n j row with
  | nil =>
    simp only [vsdRow, Out.ok, Out.mk.injEq, Except.ok.injEq] at h
    obtain ⟨rfl, rfl⟩ := h
    exact ⟨rfl, fun _ => j, rfl, rfl, fun i _ => hs, by simp⟩
  | cons f fs ih =>
    simp only [vsdRow] at h
    rcases hm : simulateVsd a (j0.layers.map Layer.id) (noise n) H f j with ⟨_ | v, j1⟩
    · rw [hm] at h; simp [Out.bind, Out.ok] at h
    rw [hm] at h
    simp only [Out.bind] at h
    rcases hl : vsdRow a (j0.layers.map Layer.id) noise H (n + 1) fs j1 with ⟨_ | vs, k'⟩
    · rw [hl] at h; simp [Out.ok] at h
    rw [hl] at h
    simp only [Out.ok, Out.mk.injEq, Except.ok.injEq] at h
    obtain ⟨rfl, rfl⟩ := h
    have hs1 := (vsd_entry hs hd hall a hdt hT hb _ _ _ _ hm).1
    obtain ⟨hlen, J, hJ0, hJk, hJs, hJ⟩ := ih (n + 1) j1 hs1 vs hl
    refine ⟨by simp [hlen], fun i => match i with | 0 => j | i + 1 => J i, rfl, hJk, ?_, ?_⟩
    · rintro (_ | i) hi
      · exact hs
      · exact hJs i (by simpa using hi)
    · rintro (_ | i) f' v' hf hv
      · simp only [List.getElem?_cons_zero, Option.some.injEq] at hf hv
        subst hf hv
        simpa [hJ0, Out.ok] using hm
      · simp only [List.getElem?_cons_succ] at hf hv
        rw [show n + (i + 1) = n + 1 + i by omega]
        exact hJ i f' v' hf hv

theorem vsdLoop_spec {j0 : Junction ℝ} (hd : DistinctIds j0) (hall : ∀ l ∈ j0.layers, l.id ≠ "all") (a : VsdArgs ℝ) (hdt : 0 < a.dt)
    (hT : 0 ≤ a.duration) (hb : a.duration / a.dt < 2 ^ 32) (noise : ℕ → ℕ → CVec ℝ) (fs : List ℝ) (Hs : List (CVec ℝ)) (n : ℕ)
    (j k : Junction ℝ) (hs : Scanned j0 j) (grid : List (List ℝ))
    (h : vsdLoop a (j0.layers.map Layer.id) noise fs n Hs j = .ok grid k) :
    grid.length = Hs.length ∧ ∃ J : ℕ → ℕ → Junction ℝ, J 0 0 = j ∧ J Hs.length 0 = k ∧
      (∀ p, p < Hs.length → J p fs.length = J (p + 1) 0) ∧ (∀ p i, p < Hs.length → i ≤ fs.length → Scanned j0 (J p i)) ∧
      ∀ p H row, Hs[p]? = some H → grid[p]? = some row → row.length = fs.length ∧ ∀ i f v, fs[i]? = some f → row[i]? = some v →
        simulateVsd a (j0.layers.map Layer.id) (noise (n + p * fs.length + i)) H f (J p i) = .ok v (J p (i + 1)) := by
  induction Hs generalizing n j grid with
  | nil =>
    simp only [vsdLoop, Out.ok, Out.mk.injEq, Except.ok.injEq] at h
    obtain ⟨rfl, rfl⟩ := h
    exact ⟨rfl, fun _ _ => j, rfl, rfl, by simp, by simp, by simp⟩
  | cons H Hs ih =>
    simp only [vsdLoop] at h
    rcases hm : vsdRow a (j0.layers.map Layer.id) noise H n fs j with ⟨_ | row, j1⟩
    · rw [hm] at h; simp [Out.bind, Out.ok] at h
    rw [hm] at h
    simp only [Out.bind] at h
    rcases hl : vsdLoop a (j0.layers.map Layer.id) noise fs (n + fs.length) Hs j1 with ⟨_ | rows, k'⟩
    · rw [hl] at h; simp [Out.ok] at h
    rw [hl] at h
    simp only [Out.ok, Out.mk.injEq, Except.ok.injEq] at h
    obtain ⟨rfl, rfl⟩ := h
    obtain ⟨hlen, I, hI0, hIk, hIs, hI⟩ := vsdRow_spec hd hall a hdt hT hb noise H fs n j j1 hs row hm
    have hs1 : Scanned j0 j1 := hIk ▸ hIs _ le_rfl
    obtain ⟨hglen, J, hJ0, hJk, hJe, hJs, hJ⟩ := ih (n + fs.length) j1 hs1 rows hl
    refine ⟨by simp [hglen], fun p => match p with | 0 => I | p + 1 => J p, hI0, hJk, ?_, ?_, ?_⟩
    · rintro (_ | p) hp
      · exact hIk.trans hJ0.symm
      · exact hJe p (by simpa using hp)
    · rintro (_ | p) i hp hi
      · exact hIs i hi
      · exact hJs p i (by simpa using hp) hi
    · rintro (_ | p) H' row' hH hrow
      · simp only [List.getElem?_cons_zero, Option.some.injEq] at hH hrow
        subst hH hrow
        exact ⟨hlen, by simpa using hI⟩
      · simp only [List.getElem?_cons_succ] at hH hrow
        obtain ⟨h1, h2⟩ := hJ p H' row' hH hrow
        refine ⟨h1, fun i f v hf hv => ?_⟩
        rw [show n + (p + 1) * fs.length + i = n + fs.length + p * fs.length + i by ring]
        exact h2 i f v hf hv

/-- **C90.** A spin-diode scan that returns gives a grid with one row per field and one column per frequency. The measurements are made
field by field, within a field frequency by frequency, each starting where the one before ended: `J p i` is the junction before the
measurement at field `p` and frequency `i`, `J p F = J (p+1) 0` with `F` the number of frequencies. That measurement starts with an empty
log, the field, an Oersted field `A sin 2πft` along the axis and the magnetisations kicked, and makes `N = ⌊T/dt⌋` solver steps. With
`M i q` the magnetisation of layer `q` after `i` steps, `R` is: for "Rz" the resistance of the two-layer junction; otherwise the x or
y resistance of the samples. The value is the mean of what the low-pass filter makes of the products `-sin(2πf i dt) R_i`. -/
theorem C90_grid {j k : Junction ℝ} (hr : Reachable j) (hd : DistinctIds j) (hall : ∀ l ∈ j.layers, l.id ≠ "all") (a : VsdArgs ℝ)
    (hdt : 0 < a.dt) (hT : 0 ≤ a.duration) (hb : a.duration / a.dt < 2 ^ 32) (noise : ℕ → ℕ → CVec ℝ) (Hs : List (CVec ℝ)) (fs : List ℝ)
    (grid : List (List ℝ)) (h : vsd a noise Hs fs j = .ok grid k) :
    a.params.length = j.layers.length ∧ grid.length = Hs.length ∧
    ∃ J : ℕ → ℕ → Junction ℝ, J 0 0 = j ∧ J Hs.length 0 = k ∧ (∀ p, p < Hs.length → J p fs.length = J (p + 1) 0) ∧
      ∀ p H row, Hs[p]? = some H → grid[p]? = some row → row.length = fs.length ∧ ∀ i f v, fs[i]? = some f → row[i]? = some v →
        0 < ⌊a.duration / a.dt⌋₊ ∧ ∃ (d : ScalarDriver ℝ) (M : ℕ → ℕ → CVec ℝ) (R b c y : List ℝ),
          (∀ t, d.value t = a.excitation * Real.sin (2 * Real.pi * f * t)) ∧
          Trajectory (prepared (J p i) H (onlyAlong a.axis d) (fun q l => kicked a.disturbance (noise (p * fs.length + i) q) l)) (J p (i + 1))
            a.dt ⌊a.duration / a.dt⌋₊ M ∧
          R.length = ⌊a.duration / a.dt⌋₊ ∧
          (a.rtype = "Rz" → j.layers.length = 2 ∧ (j.mrMode = .CLASSIC →
            R = (List.range ⌊a.duration / a.dt⌋₊).map fun i => classicR j.Rp j.Rap (M (i + 1) 0) (M (i + 1) 1))) ∧
          (a.rtype ≠ "Rz" → ∃ Rx Ry, a.resFn (a.params.map (·.Rxx0)) (a.params.map (·.Rxy0)) (a.params.map (·.Ramr))
            (a.params.map (·.Rahe)) (a.params.map (·.Rsmr)) (samples j.layers ⌊a.duration / a.dt⌋₊ M) (a.params.map (·.l))
            (a.params.map (·.w)) = .ok (Rx, Ry) ∧ (a.rtype = "Rx" ∧ R = Rx ∨ a.rtype = "Ry" ∧ R = Ry)) ∧
          a.butter (2 * 10 ^ 7 * a.dt) = .ok (b, c) ∧ (c.getD 0 0 ≠ 0 → FilterResponse b c (diodeSignal f a.dt R) y) ∧
          v = y.sum / ⌊a.duration / a.dt⌋₊ := by
  unfold vsd at h
  dsimp only at h
  split at h
  · simp [Out.fail, Out.ok] at h
  split at h
  · simp [Out.fail, Out.ok] at h
  rename_i hp
  obtain ⟨hlen, J, hJ0, hJk, hJe, hJs, hJ⟩ := vsdLoop_spec hd hall a hdt hT hb noise fs Hs 0 j k (.refl hr) grid h
  refine ⟨by simpa using hp, hlen, J, hJ0, hJk, hJe, fun p H row hH hrow => ?_⟩
  obtain ⟨h1, h2⟩ := hJ p H row hH hrow
  refine ⟨h1, fun i f v hf hv => ?_⟩
  have hsim := h2 i f v hf hv
  have hsc := hJs p i (List.getElem?_eq_some_iff.1 hH).1 (List.getElem?_eq_some_iff.1 hf).1.le
  obtain ⟨-, hN, d, M, R, b, c, e1, e2, e3, ⟨e4, e5⟩, e6, e7⟩ := vsd_entry hsc hd hall a hdt hT hb _ _ _ _ hsim
  refine ⟨hN, d, M, R, b, c, lfilter b c (diodeSignal f a.dt R), e1, by simpa using e2, e3, e4, ?_, e6, lfilter_response b c _, e7⟩
  intro hz
  exact e5 hz

/-- **C90.** What is computed from resistance and current is linear in the resistance. -/
theorem C90_linear (butter : ℝ → Except Err (List ℝ × List ℝ)) (dt : ℝ) (b c : List ℝ) (hbt : butter (2 * 10 ^ 7 * dt) = .ok (b, c))
    (hc : c.getD 0 0 ≠ 0) (i r1 r2 : List ℝ) (h1 : r1.length = i.length) (h2 : r2.length = i.length) (α β v1 v2 : ℝ)
    (e1 : computeSd butter r1 i dt = .ok v1) (e2 : computeSd butter r2 i dt = .ok v2) :
    computeSd butter (List.zipWith (fun x y => α * x + β * y) r1 r2) i dt = .ok (α * v1 + β * v2) := by
  rw [computeSd_eq _ _ _ _ h1, hbt] at e1
  rw [computeSd_eq _ _ _ _ h2, hbt] at e2
  rw [computeSd_eq _ _ _ _ (by simp [h1, h2]), hbt]
  simp only [Except.ok.injEq] at e1 e2 ⊢
  have r1' := lfilter_response b c (List.zipWith (fun i r => -i * r) i r1) hc
  have r2' := lfilter_response b c (List.zipWith (fun i r => -i * r) i r2) hc
  have r3' := lfilter_response b c (List.zipWith (fun i r => -i * r) i (List.zipWith (fun x y => α * x + β * y) r1 r2)) hc
  generalize lfilter b c (List.zipWith (fun i r => -i * r) i r1) = y1 at *
  generalize lfilter b c (List.zipWith (fun i r => -i * r) i r2) = y2 at *
  generalize lfilter b c (List.zipWith (fun i r => -i * r) i (List.zipWith (fun x y => α * x + β * y) r1 r2)) = y3 at *
  obtain ⟨l1, f1⟩ := r1'
  obtain ⟨l2, f2⟩ := r2'
  have hy : FilterResponse b c (List.zipWith (fun i r => -i * r) i (List.zipWith (fun x y => α * x + β * y) r1 r2))
      (List.zipWith (fun x y => α * x + β * y) y1 y2) := by
    refine ⟨by simp [l1, l2, h1, h2], fun n hn => ?_⟩
    have hn' : n < i.length := by simpa [h1, h2] using hn
    have g1 := f1 n (by simpa [h1] using hn')
    have g2 := f2 n (by simpa [h2] using hn')
    have get : ∀ (u w : List ℝ) (m : ℕ), m < u.length → m < w.length → (List.zipWith (fun x y => α * x + β * y) u w).getD m 0 =
        α * u.getD m 0 + β * w.getD m 0 := by
      intro u w m hu hw
      simp [hu, hw]
    have get2 : ∀ (w : List ℝ) (m : ℕ), m < i.length → m < w.length → (List.zipWith (fun i r => -i * r) i w).getD m 0 =
        -i.getD m 0 * w.getD m 0 := by
      intro w m hu hw
      simp [hu, hw]
    calc ∑ k ∈ Finset.range (n + 1), c.getD k 0 * (List.zipWith (fun x y => α * x + β * y) y1 y2).getD (n - k) 0
        = ∑ k ∈ Finset.range (n + 1), (α * (c.getD k 0 * y1.getD (n - k) 0) + β * (c.getD k 0 * y2.getD (n - k) 0)) := by
          refine Finset.sum_congr rfl fun k _ => ?_
          rw [get _ _ _ (by simp [l1, h1]; omega) (by simp [l2, h2]; omega)]
          ring
      _ = α * ∑ k ∈ Finset.range (n + 1), c.getD k 0 * y1.getD (n - k) 0 + β * ∑ k ∈ Finset.range (n + 1), c.getD k 0 * y2.getD (n - k) 0 := by
          rw [Finset.sum_add_distrib, Finset.mul_sum, Finset.mul_sum]
      _ = _ := by
          rw [g1, g2, Finset.mul_sum, Finset.mul_sum, ← Finset.sum_add_distrib]
          refine Finset.sum_congr rfl fun k _ => ?_
          rw [get2 _ _ (by omega) (by omega), get2 _ _ (by omega) (by omega), get2 _ _ (by omega) (by simp [h1, h2]; omega),
            get _ _ _ (by omega) (by omega)]
          ring
  rw [response_unique b c _ _ _ hc r3' hy]
  have hsum : ∀ u w : List ℝ, u.length = w.length → (List.zipWith (fun x y => α * x + β * y) u w).sum = α * u.sum + β * w.sum := by
    intro u
    induction u with
    | nil => intro w hw; cases w <;> simp_all
    | cons x u ih =>
      intro w hw
      cases w with
      | nil => simp at hw
      | cons y w =>
        simp only [List.zipWith_cons_cons, List.sum_cons]
        rw [ih w (by simpa using hw)]
        ring
  rw [hsum _ _ (by simp [l1, l2, h1, h2]), ← e1, ← e2]
  ring

/-! ### When it returns -/

/-- What the read-out needs: for "Rz" a classic junction of two layers, for "Rx" and "Ry" a resistance function that gives one value per
sample. -/
def Readable (a : VsdArgs ℝ) (j : Junction ℝ) : Prop :=
  (a.rtype = "Rz" ∧ j.mrMode = .CLASSIC ∧ j.layers.length = 2) ∨
  ((a.rtype = "Rx" ∨ a.rtype = "Ry") ∧ ∀ m : List (List (CVec ℝ)), m.length = j.layers.length →
    (∀ vs ∈ m, vs.length = ⌊a.duration / a.dt⌋₊) → ∃ Rx Ry, a.resFn (a.params.map (·.Rxx0)) (a.params.map (·.Rxy0)) (a.params.map (·.Ramr))
      (a.params.map (·.Rahe)) (a.params.map (·.Rsmr)) m (a.params.map (·.l)) (a.params.map (·.w)) = .ok (Rx, Ry) ∧
      Rx.length = ⌊a.duration / a.dt⌋₊ ∧ Ry.length = ⌊a.duration / a.dt⌋₊)

theorem entry_completes {j0 j : Junction ℝ} (hs : Scanned j0 j) (hd : DistinctIds j0) (hall : ∀ l ∈ j0.layers, l.id ≠ "all")
    (hg : ∀ l ∈ j.layers, l.Ms * l.thickness ≠ 0) (hq : ∀ l ∈ j.layers, ¬ Noisy l) (a : VsdArgs ℝ) (hdt : 0 < a.dt)
    (hT : a.dt ≤ a.duration) (hb : a.duration / a.dt < 2 ^ 32) (hdist : a.disturbance = 0) (hread : Readable a j0) (b c : List ℝ)
    (hbt : a.butter (2 * 10 ^ 7 * a.dt) = .ok (b, c)) (noise : ℕ → CVec ℝ) (H : CVec ℝ) (f : ℝ) (hf : f ≠ -1) :
    ∃ v k, simulateVsd a (j0.layers.map Layer.id) noise H f j = .ok v k ∧ (∀ l ∈ k.layers, l.Ms * l.thickness ≠ 0) ∧
      ∀ l ∈ k.layers, ¬ Noisy l := by
  have hT0 : 0 ≤ a.duration := hdt.le.trans hT
  have hN : 0 < ⌊a.duration / a.dt⌋₊ := Nat.floor_pos.2 (by rwa [le_div_iff₀ hdt, one_mul])
  obtain ⟨d, hdr⟩ := (ScalarDriver.C06_factories (@OfNat.ofNat ℝ 0 (Scalar.instOfNat 0)) a.excitation f
    (@OfNat.ofNat ℝ 0 (Scalar.instOfNat 0))).1.2 hf
  obtain ⟨k, hm, hg1, hq1⟩ := measure_completes hs hg hq H (onAxis a.axis d) noise hdt hT0 hb
  rw [← hdist] at hm
  obtain ⟨hs1, M, hM, hdata⟩ := measure_data hs hd hall hdt hT0 hb hm
  obtain ⟨hc1, hc2⟩ := samples_ok hs1 hdata hN
  have hR : ∃ R, vsdResistance a (j0.layers.map Layer.id) k (samples j0.layers ⌊a.duration / a.dt⌋₊ M) = .ok R ∧
      R.length = ⌊a.duration / a.dt⌋₊ := by
    unfold vsdResistance
    rcases hread with ⟨hz, hmode, htwo⟩ | ⟨hxy, hres⟩
    · rw [if_pos hz]
      have hm' := hm
      rw [← hs.ids] at hm'
      obtain ⟨hrun, hrs⟩ := measure_spec hs.reach (hs.distinct hd) (hs.notAll hall) hm'
      have hpid := (ids_of_rigid (prepared_rigid j H (onAxis a.axis d) (fun q l => kicked a.disturbance (noise q) l))).trans hs.ids
      obtain ⟨l0, l1, hl⟩ := List.length_eq_two.1 htwo
      rw [hl] at hpid ⊢
      have hcol := resistance_column hrs rfl (by rw [← hmode]; exact hs.params.1.symm) hpid hdt hT0 hb hrun hM
      exact ⟨_, lookup_ok hdata.tidy hN hcol, by simp⟩
    · have hz : a.rtype ≠ "Rz" := by rcases hxy with h | h <;> rw [h] <;> decide
      rw [if_neg hz]
      obtain ⟨Rx, Ry, hr, h1, h2⟩ := hres (samples j0.layers ⌊a.duration / a.dt⌋₊ M) (by simp [samples]) (by
        intro vs hvs
        unfold samples at hvs
        obtain ⟨q, hq, rfl⟩ := List.mem_mapIdx.1 hvs
        simp)
      have hr' : resistances a.resFn a.params (samples j0.layers ⌊a.duration / a.dt⌋₊ M) = .ok (Rx, Ry) := hr
      rw [hr']
      rcases hxy with h | h
      · exact ⟨Rx, by simp [h], h1⟩
      · exact ⟨Ry, by simp [h], h2⟩
  obtain ⟨R, hR, hlen⟩ := hR
  have hv : ∃ v, vsdRead a (j0.layers.map Layer.id) k f = .ok v := by
    unfold vsdRead
    rw [hc1]
    dsimp only
    rw [hc2]
    dsimp only
    rw [hR, lookup_ok hdata.tidy hN hdata.time]
    dsimp only
    rw [computeSd_eq _ _ _ _ (by simp [hlen]), hbt]
    exact ⟨_, rfl⟩
  obtain ⟨v, hv⟩ := hv
  refine ⟨v, k, ?_, hg1, hq1⟩
  unfold simulateVsd
  rw [hdr]
  dsimp only
  rw [hm]
  simp only [Out.bind_ok, hv]

/-- **C90.** When a spin-diode scan returns: no noise, no layer of vanishing moment, no disturbance, at least one step, one parameter set
per layer, filter coefficients for the cutoff, no frequency `-1` (which the driver takes for a missing one), and a resistance that can be
read. -/
theorem C90_completes {j : Junction ℝ} (hr : Reachable j) (hd : DistinctIds j) (hall : ∀ l ∈ j.layers, l.id ≠ "all")
    (hg : ∀ l ∈ j.layers, l.Ms * l.thickness ≠ 0) (hq : ∀ l ∈ j.layers, ¬ Noisy l) (a : VsdArgs ℝ) (hdt : 0 < a.dt)
    (hT : a.dt ≤ a.duration) (hb : a.duration / a.dt < 2 ^ 32) (hdist : a.disturbance = 0) (hlen : a.params.length = j.layers.length)
    (hread : Readable a j) (b c : List ℝ) (hbt : a.butter (2 * 10 ^ 7 * a.dt) = .ok (b, c)) (noise : ℕ → ℕ → CVec ℝ) (Hs : List (CVec ℝ))
    (fs : List ℝ) (hfs : ∀ f ∈ fs, f ≠ -1) : ∃ grid k, vsd a noise Hs fs j = .ok grid k := by
  have hT0 : 0 ≤ a.duration := hdt.le.trans hT
  have row : ∀ (fs : List ℝ), (∀ f ∈ fs, f ≠ -1) → ∀ (H : CVec ℝ) (n : ℕ) (i : Junction ℝ), Scanned j i → (∀ l ∈ i.layers, l.Ms * l.thickness ≠ 0) →
      (∀ l ∈ i.layers, ¬ Noisy l) → ∃ r k, vsdRow a (j.layers.map Layer.id) noise H n fs i = .ok r k ∧ Scanned j k ∧
        (∀ l ∈ k.layers, l.Ms * l.thickness ≠ 0) ∧ ∀ l ∈ k.layers, ¬ Noisy l := by
    intro fs
    induction fs with
    | nil => intro _ H n i h1 h2 h3; exact ⟨[], i, rfl, h1, h2, h3⟩
    | cons f fs ih =>
      intro hf H n i h1 h2 h3
      obtain ⟨v, k, e1, g1, q1⟩ := entry_completes h1 hd hall h2 h3 a hdt hT hb hdist hread b c hbt (noise n) H f (hf f (by simp))
      have hs1 := (vsd_entry h1 hd hall a hdt hT0 hb _ _ _ _ e1).1
      obtain ⟨r, k', e2, hs2, g2, q2⟩ := ih (fun f' hf' => hf f' (by simp [hf'])) H (n + 1) k hs1 g1 q1
      refine ⟨v :: r, k', ?_, hs2, g2, q2⟩
      simp only [vsdRow, e1, Out.bind_ok, e2]
  have loop : ∀ (Hs : List (CVec ℝ)) (n : ℕ) (i : Junction ℝ), Scanned j i → (∀ l ∈ i.layers, l.Ms * l.thickness ≠ 0) →
      (∀ l ∈ i.layers, ¬ Noisy l) → ∃ g k, vsdLoop a (j.layers.map Layer.id) noise fs n Hs i = .ok g k := by
    intro Hs
    induction Hs with
    | nil => intro n i _ _ _; exact ⟨[], i, rfl⟩
    | cons H Hs ih =>
      intro n i h1 h2 h3
      obtain ⟨r, k, e1, hs1, g1, q1⟩ := row fs hfs H n i h1 h2 h3
      obtain ⟨g, k', e2⟩ := ih (n + fs.length) k hs1 g1 q1
      exact ⟨r :: g, k', by simp only [vsdLoop, e1, Out.bind_ok, e2]⟩
  obtain ⟨grid, k, h⟩ := loop Hs 0 j (.refl hr) hg hq
  refine ⟨grid, k, ?_⟩
  unfold vsd
  dsimp only
  rw [if_neg, if_neg (by simpa using hlen)]
  · exact h
  · rintro ⟨hz, h2⟩
    rcases hread with ⟨-, -, h3⟩ | ⟨h3 | h3, -⟩
    · simp [h3] at h2
    · rw [h3] at hz; revert hz; decide
    · rw [h3] at hz; revert hz; decide

/-- **C90.** What is refused before anything is done: "Rz" with more than two layers, and a wrong number of parameter sets, so also the
default empty list. The junction is untouched. -/
theorem C90_refused (a : VsdArgs ℝ) (noise : ℕ → ℕ → CVec ℝ) (Hs : List (CVec ℝ)) (fs : List ℝ) (j : Junction ℝ)
    (h : a.rtype = "Rz" ∧ 2 < j.layers.length ∨ a.params.length ≠ j.layers.length) : vsd a noise Hs fs j = .fail .valueError j := by
  unfold vsd
  dsimp only
  rcases h with h | h
  · rw [if_pos (by simpa using h)]
  · split
    · rfl
    · rw [if_pos (by simpa using h)]

/-! ### C63 -/

/-- **C63 (partial).** The "Rz" read-out of a classic junction of two layers finds the resistance: the scan returns (with the hypotheses
of `C90_completes`), and its values are computed from the resistance column of the junction (`C90_grid`). Missing for the full statement,
and refuted below: classic junctions of one layer. -/
theorem C63_partial {j : Junction ℝ} (hr : Reachable j) (hd : DistinctIds j) (hall : ∀ l ∈ j.layers, l.id ≠ "all")
    (hg : ∀ l ∈ j.layers, l.Ms * l.thickness ≠ 0) (hq : ∀ l ∈ j.layers, ¬ Noisy l) (hmode : j.mrMode = .CLASSIC) (htwo : j.layers.length = 2)
    (a : VsdArgs ℝ) (hz : a.rtype = "Rz") (hdt : 0 < a.dt) (hT : a.dt ≤ a.duration) (hb : a.duration / a.dt < 2 ^ 32)
    (hdist : a.disturbance = 0) (hlen : a.params.length = j.layers.length) (b c : List ℝ) (hbt : a.butter (2 * 10 ^ 7 * a.dt) = .ok (b, c))
    (noise : ℕ → ℕ → CVec ℝ) (Hs : List (CVec ℝ)) (fs : List ℝ) (hfs : ∀ f ∈ fs, f ≠ -1) :
    ∃ grid k, vsd a noise Hs fs j = .ok grid k :=
  C90_completes hr hd hall hg hq a hdt hT hb hdist hlen (.inl ⟨hz, hmode, htwo⟩) b c hbt noise Hs fs hfs

/-- **C63 (refuted).** A junction of one layer logs its resistance as "R", the procedure reads "Resistance": the scan stops with a
KeyError. Noise, disturbance, filter and mode of the resistance do not matter; whenever the first run completes this is the outcome. -/
theorem C63_one_layer {j : Junction ℝ} (hr : Reachable j) (hone : j.layers.length = 1) (hall : ∀ l ∈ j.layers, l.id ≠ "all")
    (a : VsdArgs ℝ) (hz : a.rtype = "Rz") (hdt : 0 < a.dt) (hT : 0 ≤ a.duration) (hb : a.duration / a.dt < 2 ^ 32)
    (noise : ℕ → ℕ → CVec ℝ) (H : CVec ℝ) (Hs : List (CVec ℝ)) (f : ℝ) (fs : List ℝ) :
    (∀ grid k, vsd a noise (H :: Hs) (f :: fs) j ≠ .ok grid k) ∧
    (a.params.length = 1 → ∀ (d : ScalarDriver ℝ) k, ScalarDriver.sineDriver 0 a.excitation f 0 = .ok d →
      measure j (j.layers.map Layer.id) H (onAxis a.axis d) a.disturbance (noise 0) a.duration a.dt = .ok () k →
      vsd a noise (H :: Hs) (f :: fs) j = .fail .keyError k) := by
  obtain ⟨l, hl⟩ := List.length_eq_one_iff.1 hone
  have hd : DistinctIds j := by simp [DistinctIds, hl]
  constructor
  · intro grid k h
    obtain ⟨-, hg, J, -, -, -, hJ⟩ := C90_grid hr hd hall a hdt hT hb noise _ _ _ h
    rcases grid with _ | ⟨row, grid⟩
    · simp at hg
    obtain ⟨hrow, hi⟩ := hJ 0 H row rfl rfl
    rcases row with _ | ⟨v, row⟩
    · simp at hrow
    obtain ⟨-, d, M, R, b, c, y, -, -, -, h4, -⟩ := hi 0 f v rfl rfl
    have := (h4 hz).1
    omega
  · intro hp d k hdr hm
    have hdr' : ScalarDriver.sineDriver (@OfNat.ofNat ℝ 0 (Scalar.instOfNat 0)) a.excitation f (@OfNat.ofNat ℝ 0 (Scalar.instOfNat 0)) = .ok d := by
      simpa using hdr
    obtain ⟨hs1, M, hM, hdata⟩ := measure_data (.refl hr) hd hall hdt hT hb hm
    obtain ⟨hrun, hrs⟩ := measure_spec hr hd hall hm
    have hpid := ids_of_rigid (prepared_rigid j H (onAxis a.axis d) (fun q l => kicked a.disturbance (noise 0 q) l))
    have hi : j.layers.map Layer.id = [l.id] := by rw [hl]; rfl
    have hro : vsdRead a (j.layers.map Layer.id) k f = .error .keyError := by
      unfold vsdRead
      rcases Nat.eq_zero_or_pos ⌊a.duration / a.dt⌋₊ with h0 | hN
      · rw [h0] at hdata
        rw [samples_none hs1 hdata]
      · obtain ⟨hc1, hc2⟩ := samples_ok hs1 hdata hN
        rw [hc1]
        dsimp only
        rw [hc2]
        dsimp only
        have : vsdResistance a (j.layers.map Layer.id) k (samples j.layers ⌊a.duration / a.dt⌋₊ M) = .error .keyError := by
          unfold vsdResistance
          rw [if_pos hz, hi]
          simp only
          rw [lookup_tidy hdata.tidy, if_pos (column_absent hrs rfl hrun _ (resistance_absent (hpid.trans hi)))]
        rw [this]
    unfold vsd
    dsimp only
    rw [if_neg (by simp [hl]), if_neg (by simp [hl, hp])]
    have hsim : simulateVsd a (j.layers.map Layer.id) (noise 0) H f j = .fail .keyError k := by
      unfold simulateVsd
      rw [hdr']
      dsimp only
      rw [hm]
      simp only [Out.bind_ok, hro]
    have hsim' : simulateVsd a (j.layers.map fun x => x.id) (noise 0) H f j = .fail .keyError k := hsim
    simp only [vsdLoop, vsdRow, hsim', Out.bind_fail]

/-- Arguments of a short scan. -/
noncomputable def diodeArgs (n : ℕ) : VsdArgs ℝ where
  dt := 1
  params := List.replicate n ⟨0, 0, 1, 0, 0, 1, 1⟩
  axis := .zaxis
  excitation := 10
  duration := 5
  disturbance := 0
  rtype := "Rz"
  resFn := fun _ _ _ _ _ _ _ _ => .error .valueError
  butter := fun _ => .ok ([1, 1], [2, 1])

/-- **C63 (refuted).** So the property fails: a classic junction of one layer, all else in order. -/
theorem C63_refuted : ∃ (j : Junction ℝ) (a : VsdArgs ℝ), Reachable j ∧ DistinctIds j ∧ (∀ l ∈ j.layers, l.id ≠ "all") ∧ j.mrMode = .CLASSIC ∧
    j.layers.length = 1 ∧ (∀ l ∈ j.layers, l.Ms * l.thickness ≠ 0 ∧ ¬ Noisy l) ∧ a.rtype = "Rz" ∧ a.params.length = 1 ∧
    ∃ k, "R" ∈ k.log.keys ∧ vsd a (fun _ _ => ⟨0, 0, 0⟩) [⟨1, 0, 0⟩] [1] j = .fail .keyError k := by
  have hall : ∀ l ∈ Stack.oneJ.layers, l.id ≠ "all" := by
    simp [Stack.oneJ, Junction.quietLayer, plainOf, Layer.demo]
  have hfine := Stack.layers_fine (j := Stack.oneJ) (.inl rfl)
  refine ⟨Stack.oneJ, diodeArgs 1, Stack.oneJ_reachable, by simp [DistinctIds, Stack.oneJ], hall, rfl, rfl, hfine, rfl, rfl, ?_⟩
  obtain ⟨d, hdr⟩ := (ScalarDriver.C06_factories (0 : ℝ) 10 1 0).1.2 (by norm_num)
  obtain ⟨k, hm, -⟩ := measure_completes (.refl Stack.oneJ_reachable) (fun l h => (hfine l h).1) (fun l h => (hfine l h).2) ⟨1, 0, 0⟩
    (onAxis .zaxis d) (fun _ => ⟨0, 0, 0⟩) (T := 5) (dt := 1) (by norm_num) (by norm_num) (by norm_num)
  have h := (C63_one_layer Stack.oneJ_reachable rfl hall (diodeArgs 1) rfl (by norm_num [diodeArgs]) (by norm_num [diodeArgs])
    (by norm_num [diodeArgs]) (fun _ _ => ⟨0, 0, 0⟩) ⟨1, 0, 0⟩ [] 1 []).2 rfl d k hdr hm
  refine ⟨k, ?_, h⟩
  obtain ⟨hrun, hrs⟩ := measure_spec Stack.oneJ_reachable (by simp [DistinctIds, Stack.oneJ]) hall hm
  obtain ⟨N, W, r, m, j1, v, hN, hW, hg, hv, hcol⟩ := Junction.C27_resistance hrs (by simp [prepared, Stack.oneJ]) hrun
  have hc := hcol 0 "R" rfl
  rw [Junction.toUInt_floor _ (by norm_num) (by norm_num)] at hN hW
  cases hN
  cases hW
  have htidy := (measure_data (.refl Stack.oneJ_reachable) (by simp [DistinctIds, Stack.oneJ]) hall (by norm_num) (by norm_num)
    (by norm_num) hm).2.choose_spec.2.tidy
  rw [← Log.col_ne_nil htidy]
  intro h0
  rw [h0, show ⌊(1 : ℝ) / 1⌋₊ = 1 by norm_num, sampleSteps_one] at hc
  have := congrArg List.length hc
  simp only [List.map_nil, List.length_nil, List.length_append, List.length_map, List.length_range] at this
  have h5 : ⌊(5 : ℝ) / 1⌋₊ = 5 := by norm_num
  rw [h5] at this
  omega

example : ∃ grid k, vsd (diodeArgs 2) (fun _ _ => ⟨0, 0, 0⟩) [⟨1, 0, 0⟩, ⟨2, 0, 0⟩] [1, 2] Junction.builtJ = .ok grid k := by
  have hd : DistinctIds Junction.builtJ := by
    simp [DistinctIds, Junction.builtJ, Junction.twoLayers, Junction.quietLayer, plainOf, Layer.demo]
  have hall : ∀ l ∈ Junction.builtJ.layers, l.id ≠ "all" := by
    simp [Junction.builtJ, Junction.twoLayers, Junction.quietLayer, plainOf, Layer.demo]
  refine C63_partial Junction.built_reachable hd hall ?_ ?_ rfl rfl (diodeArgs 2) rfl ?_ ?_ ?_ rfl rfl [1, 1] [2, 1] rfl _ _ _ ?_
  · simp [Junction.builtJ, Junction.twoLayers, Junction.quietLayer, plainOf, Layer.demo]
  · simp [Junction.builtJ, Junction.twoLayers, Junction.quietLayer, plainOf, Layer.demo, Noisy]
  · norm_num [diodeArgs]
  · norm_num [diodeArgs]
  · norm_num [diodeArgs]
  · simp; norm_num

end Proc
