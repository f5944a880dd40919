import Verif.Props.PyProcScan
import Verif.Props.Colour
import Verif.Props.Equilibrium
import Verif.Model.PyResistance

set_option linter.unusedSectionVars false

/-!
# C88: the spectra of `compute_spectrum_strip`
-/

namespace Proc
open Spec AlphaFilter

/-- **C88.** An empty signal is refused. -/
theorem C88_empty (f : List ℝ → List ℝ) (dt fmax : ℝ) : spectrumStrip f [] dt fmax = .error .valueError := by
  simp [spectrumStrip]

/-- **C88.** The frequencies that come back: one per amplitude, increasing, exactly the multiples of `1/(n dt)` from 0 up to the given
maximum among the first `n / 2`, hence below half the sampling rate. -/
theorem C88_frequencies (x : List ℝ) (hx : x ≠ []) (dt fmax : ℝ) (hdt : 0 < dt) :
    ∃ ys fs, spectrumStrip absDft x dt fmax = .ok (ys, fs) ∧ ys.length = fs.length ∧ fs.Pairwise (· < ·) ∧
      (∀ f, f ∈ fs ↔ f ≤ fmax ∧ ∃ k : ℕ, k < x.length / 2 ∧ f = k / (x.length * dt)) ∧ ∀ f ∈ fs, f < 1 / (2 * dt) := by
  have hn : (0 : ℝ) < x.length := by exact_mod_cast List.length_pos_iff.2 hx
  have hmem : ∀ f, f ∈ ((bins x.length dt fmax).map fun k : ℕ => (k : ℝ) / (x.length * dt)) ↔
      f ≤ fmax ∧ ∃ k : ℕ, k < x.length / 2 ∧ f = k / (x.length * dt) := by
    intro f
    simp only [bins, List.mem_map, List.mem_filter, List.mem_range, decide_eq_true_eq]
    constructor
    · rintro ⟨k, ⟨h1, h2⟩, rfl⟩
      exact ⟨h2, k, h1, rfl⟩
    · rintro ⟨h1, k, h2, rfl⟩
      exact ⟨k, ⟨h2, h1⟩, rfl⟩
  refine ⟨_, _, strip_eq x hx dt fmax, by simp, ?_, hmem, ?_⟩
  · rw [List.pairwise_map]
    refine List.Pairwise.filter _ ?_
    refine (List.pairwise_lt_range).imp fun {a b} hab => ?_
    have : (a : ℝ) < b := by exact_mod_cast hab
    gcongr
  · intro f hf
    obtain ⟨-, k, hk, rfl⟩ := (hmem f).1 hf
    rw [div_lt_div_iff₀ (by positivity) (by positivity), one_mul]
    have : 2 * (k : ℝ) + 1 ≤ x.length := by
      have : 2 * k + 1 ≤ x.length := by omega
      exact_mod_cast this
    nlinarith

/-! ### Amplitudes -/

theorem amplitude_E (x : List ℝ) (k : ℕ) :
    amplitude x k = ‖∑ i ∈ Finset.range x.length, (x.getD i 0 : ℂ) * E x.length (-((i : ℤ) * k))‖ := by
  unfold amplitude
  congr 1
  refine Finset.sum_congr rfl fun i _ => ?_
  rw [E]
  congr 2
  push_cast
  ring

/-- **C88.** A constant plus a cosine with a whole number `k₀` of periods: the amplitude is `n |c|` at frequency 0, `n |A| / 2` at the
frequency of the cosine and 0 at all others. -/
theorem C88_tone (n k0 : ℕ) (h0 : 0 < k0) (h1 : 2 * k0 < n) (c A φ dt fmax : ℝ) :
    spectrumStrip absDft ((List.range n).map fun i : ℕ => c + A * Real.cos (2 * Real.pi * k0 * i / n + φ)) dt fmax =
      .ok ((bins n dt fmax).map (fun k => if k = 0 then n * |c| else if k = k0 then n * |A| / 2 else 0),
        (bins n dt fmax).map fun k : ℕ => (k : ℝ) / (n * dt)) := by
  have hn : n ≠ 0 := by omega
  rw [strip_eq _ (by simpa using hn)]
  simp only [List.length_map, List.length_range]
  congr 2
  refine List.map_congr_left fun k hk => ?_
  have hk2 : k < n / 2 := by
    have := (List.mem_filter.1 hk).1
    simpa using this
  rw [amplitude_E]
  simp only [List.length_map, List.length_range]
  have hterm : ∀ i ∈ Finset.range n, ((((List.range n).map fun i : ℕ => c + A * Real.cos (2 * Real.pi * k0 * i / n + φ)).getD i 0 : ℝ) : ℂ) *
      E n (-((i : ℤ) * k)) = c * E n ((i : ℤ) * (-k)) + (A / 2 * Complex.exp (φ * Complex.I)) * E n ((i : ℤ) * (k0 - k)) +
        (A / 2 * Complex.exp (-(φ * Complex.I))) * E n ((i : ℤ) * (-k0 - k)) := by
    intro i hi
    have hi : i < n := by simpa using hi
    have e1 : Complex.cos ((2 * Real.pi * k0 * i / n + φ : ℝ) : ℂ) =
        (Complex.exp (φ * Complex.I) * E n ((i : ℤ) * k0) + Complex.exp (-(φ * Complex.I)) * E n ((i : ℤ) * (-k0))) / 2 := by
      rw [Complex.cos, E, E, ← Complex.exp_add, ← Complex.exp_add]
      congr 3
      · push_cast; ring
      · push_cast; ring
    have e2 : E n ((i : ℤ) * (k0 - k)) = E n ((i : ℤ) * k0) * E n (-((i : ℤ) * k)) := by rw [← E_add]; congr 1; ring
    have e3 : E n ((i : ℤ) * (-k0 - k)) = E n ((i : ℤ) * (-k0)) * E n (-((i : ℤ) * k)) := by rw [← E_add]; congr 1; ring
    have e4 : E n ((i : ℤ) * (-k)) = E n (-((i : ℤ) * k)) := by congr 1; ring
    rw [e2, e3, e4]
    simp only [List.getD_eq_getElem?_getD, List.getElem?_map, List.getElem?_range hi, Option.map_some, Option.getD_some]
    push_cast at e1 ⊢
    rw [e1]
    ring
  rw [Finset.sum_congr rfl hterm, Finset.sum_add_distrib, Finset.sum_add_distrib, ← Finset.mul_sum, ← Finset.mul_sum, ← Finset.mul_sum,
    E_sum hn, E_sum hn, E_sum hn]
  have hsmall : ∀ z : ℤ, z ≠ 0 → |z| < n → ¬ (n : ℤ) ∣ z := fun z hz hlt hd => hz (Int.eq_zero_of_abs_lt_dvd hd hlt)
  have d3 : ¬ (n : ℤ) ∣ (-k0 - k) := hsmall _ (by omega) (by rw [abs_lt]; omega)
  rw [if_neg d3]
  rcases Nat.eq_zero_or_pos k with rfl | hkp
  · rw [if_pos (by simp), if_neg (hsmall _ (by omega) (by rw [abs_lt]; omega)), if_pos rfl]
    simp [mul_comm]
  · rw [if_neg (hsmall _ (by omega) (by rw [abs_lt]; omega)), if_neg (by omega : ¬ k = 0)]
    by_cases hkk : k = k0
    · subst hkk
      rw [if_pos (by simp), if_pos rfl]
      simp [Complex.norm_exp]
      ring
    · rw [if_neg (hsmall _ (by omega) (by rw [abs_lt]; omega)), if_neg hkk]
      simp

/-- **C88.** The squares of the amplitudes over all `n` bins add up to `n` times the squares of the samples. -/
theorem C88_power (x : List ℝ) : ∑ k ∈ Finset.range x.length, amplitude x k ^ 2 = x.length * (x.map (· ^ 2)).sum := by
  rcases eq_or_ne x [] with rfl | hx
  · simp
  have hn : x.length ≠ 0 := by simpa using hx
  have h1 : ∀ k, ((amplitude x k ^ 2 : ℝ) : ℂ) =
      ∑ i ∈ Finset.range x.length, ∑ j ∈ Finset.range x.length, ((x.getD i 0 : ℝ) * (x.getD j 0 : ℝ) : ℂ) * E x.length ((k : ℤ) * ((j : ℤ) - i)) := by
    intro k
    rw [amplitude_E]
    push_cast
    rw [← Complex.mul_conj', map_sum, Finset.sum_mul_sum]
    refine Finset.sum_congr rfl fun i _ => Finset.sum_congr rfl fun j _ => ?_
    rw [map_mul, Complex.conj_ofReal, ← E_neg, neg_neg]
    rw [show (k : ℤ) * ((j : ℤ) - i) = -((i : ℤ) * k) + (j : ℤ) * k by ring, E_add]
    ring
  have h2 : ((∑ k ∈ Finset.range x.length, amplitude x k ^ 2 : ℝ) : ℂ) = ((x.length * ∑ i ∈ Finset.range x.length, x.getD i 0 ^ 2 : ℝ) : ℂ) := by
    rw [Complex.ofReal_sum, Finset.sum_congr rfl fun k _ => h1 k, Finset.sum_comm, Finset.mul_sum, Complex.ofReal_sum]
    refine Finset.sum_congr rfl fun i hi => ?_
    rw [Finset.sum_comm]
    simp only [← Finset.mul_sum]
    rw [Finset.sum_congr rfl fun j _ => by rw [E_sum hn], Finset.sum_eq_single i]
    · rw [sub_self, if_pos (dvd_zero _)]
      push_cast
      ring
    · intro j hj hji
      have hi' : i < x.length := by simpa using hi
      have hj' : j < x.length := by simpa using hj
      rw [if_neg, mul_zero]
      intro hd
      have := Int.eq_zero_of_abs_lt_dvd hd (by rw [abs_lt]; omega)
      omega
    · intro h; exact absurd hi h
  have h3 : ∑ i ∈ Finset.range x.length, x.getD i 0 ^ 2 = (x.map (· ^ 2)).sum := by
    rw [Finset.sum_range, ← List.sum_ofFn]
    congr 1
    apply List.ext_getElem (by simp)
    intro i h1 h2
    simp
  rw [← h3]
  exact_mod_cast h2

/-- **C88.** No line of the summed signal is higher than those of the layers together. -/
theorem C88_layers (axis : Axis) (ls : List (Layer ℝ)) (M : ℕ → ℕ → CVec ℝ) (is : List ℕ) (k : ℕ) :
    amplitude (signal axis ls M is) k ≤ ((layerSignals axis ls M is).map fun x => amplitude x k).sum := by
  have key : ∀ fs : List (ℕ → ℝ), amplitude (is.map fun i => (fs.map (· i)).sum) k ≤ (fs.map fun f => amplitude (is.map f) k).sum := by
    intro fs
    induction fs with
    | nil =>
      rw [amplitude_E, Finset.sum_eq_zero]
      · simp
      · intro i hi
        have hi : i < is.length := by simpa using hi
        simp [List.getD_eq_getElem?_getD, hi]
    | cons f fs ih =>
      simp only [List.map_cons, List.sum_cons]
      refine le_trans ?_ (add_le_add_right ih _)
      rw [amplitude_E, amplitude_E, amplitude_E]
      simp only [List.length_map]
      refine le_trans (le_of_eq ?_) (norm_add_le _ _)
      rw [← Finset.sum_add_distrib]
      congr 1
      refine Finset.sum_congr rfl fun i hi => ?_
      have hi : i < is.length := by simpa using hi
      simp [List.getD_eq_getElem?_getD, hi]
      ring
  have h := key (ls.mapIdx fun q l => fun i => share ls l * along axis (M (i + 1) q))
  have e1 : signal axis ls M is = is.map fun i => ((ls.mapIdx fun q l => fun i => share ls l * along axis (M (i + 1) q)).map (· i)).sum := by
    unfold signal
    refine List.map_congr_left fun i _ => ?_
    congr 1
    apply List.ext_getElem (by simp)
    intro q h1 h2
    simp
  have e2 : (layerSignals axis ls M is).map (fun x => amplitude x k) =
      (ls.mapIdx fun q l => fun i => share ls l * along axis (M (i + 1) q)).map fun f => amplitude (is.map f) k := by
    unfold layerSignals
    apply List.ext_getElem (by simp)
    intro q h1 h2
    simp
  rw [e1, e2]
  exact h

/-! ### C89: the resistances -/

/-- **C89**, for a single layer: what goes to the resistance function are the magnetisations themselves, for layers of non-zero moment.
The full statement, that this holds for every number of layers, is refuted below. -/
theorem C89_resistance_partial (l : Layer ℝ) (hl : l.thickness * l.Ms ≠ 0) (N : ℕ) (M : ℕ → ℕ → CVec ℝ) :
    sharedSamples [l] N M = [(List.range N).map fun i => M (i + 1) 0] := by
  have h : share [l] l = 1 := by simp [share, div_self hl]
  simp [sharedSamples, h, times]

/-- The resistance function PIMM uses when none is given (procedures.py:53). -/
noncomputable def series : ResFn ℝ := fun Rx0 Ry0 AMR AHE SMR m l w =>
  PyResistance.seriesResistance (m.headD []).length Rx0 Ry0 AMR AHE SMR m l w

/-- One step of a junction at rest. -/
noncomputable def restArgs : PimmArgs ℝ :=
  { demoArgs with params := [⟨0, 0, 1, 0, 0, 1, 1⟩, ⟨0, 0, 1, 0, 0, 1, 1⟩], duration := 1, wait := 0, resFn := series, takeLast := 1, static := true }

/-- helper: the two layers in a field along z, and an Oersted field along z -/
theorem rest_equilibrium (d : ScalarDriver ℝ) (m : ℕ → Layer ℝ → CVec ℝ) (hm : ∀ q l, m q l = l.mag) :
    (prepared Junction.builtJ ⟨0, 0, 1⟩ (onlyAlong .zaxis d) m).Equilibrium := by
  intro i l hl
  have hlen : (⟨0, 0, 1⟩ : CVec ℝ).length = 1 := by
    rw [CVec.length_eq]; simp only [CVec.normSq]; norm_num
  have par : ∀ h : CVec ℝ, h.x = 0 → h.y = 0 → Parallel ⟨0, 0, 1⟩ h := by
    intro h hx hy; exact ⟨h.z, by ext <;> simp [hx, hy]⟩
  have hmag : l.mag = ⟨0, 0, 1⟩ := by
    match i, hl with
    | 0, hl => cases hl; simp [hm, Junction.quietLayer, plainOf, Layer.demo]
    | 1, hl => cases hl; simp [hm, Junction.quietLayer, plainOf, Layer.demo]
    | n + 2, hl => simp [prepared, Junction.builtJ, Junction.twoLayers] at hl
  have hg : l.Guard := by
    match i, hl with
    | 0, hl => cases hl; simp [Layer.Guard, Junction.quietLayer, plainOf, Layer.demo]
    | 1, hl => cases hl; simp [Layer.Guard, Junction.quietLayer, plainOf, Layer.demo]
    | n + 2, hl => simp [prepared, Junction.builtJ, Junction.twoLayers] at hl
  rw [hmag]
  refine ⟨hlen, ?_, ?_, ?_, fun t => ?_⟩
  · match i, hl with
    | 0, hl => cases hl; simp [Noisy, Junction.quietLayer, plainOf, Layer.demo]
    | 1, hl => cases hl; simp [Noisy, Junction.quietLayer, plainOf, Layer.demo]
    | n + 2, hl => simp [prepared, Junction.builtJ, Junction.twoLayers] at hl
  · match i, hl with
    | 0, hl => cases hl; simp [Junction.quietLayer, plainOf, Layer.demo]
    | 1, hl => cases hl; simp [Junction.quietLayer, plainOf, Layer.demo]
    | n + 2, hl => simp [prepared, Junction.builtJ, Junction.twoLayers] at hl
  · match i, hl with
    | 0, hl => cases hl; simp [Junction.quietLayer, plainOf, Layer.demo]
    | 1, hl => cases hl; simp [Junction.quietLayer, plainOf, Layer.demo]
    | n + 2, hl => simp [prepared, Junction.builtJ, Junction.twoLayers] at hl
  · obtain ⟨c, hc⟩ := Layer.heff_ok l t ⟨0, 0, 1⟩ (magBelow (prepared Junction.builtJ ⟨0, 0, 1⟩ (onlyAlong .zaxis d) m).layers i)
      (magAbove (prepared Junction.builtJ ⟨0, 0, 1⟩ (onlyAlong .zaxis d) m).layers i) ⟨0, 0, 0⟩ hg
    refine ⟨_, _, hc, par _ ?_ ?_⟩
    all_goals
      match i, hl with
      | 0, hl =>
        cases hl
        simp [Layer.heffV, Layer.dipV, prepared, Junction.builtJ, Junction.twoLayers, Junction.quietLayer, plainOf, Layer.demo, magBelow, magAbove,
          Layer.iecV, Layer.idmiV, CVec.divU, Layer.anisotropyField, Tensor.interaction, AxialDriver.value, AxialDriver.ofVec, AxialDriver.null,
          ScalarDriver.value, ScalarDriver.null, ScalarDriver.constantDriver, Tensor.zero, CVec.dot, onlyAlong, constantField]
      | 1, hl =>
        cases hl
        simp [Layer.heffV, Layer.dipV, prepared, Junction.builtJ, Junction.twoLayers, Junction.quietLayer, plainOf, Layer.demo, magBelow, magAbove,
          Layer.iecV, Layer.idmiV, CVec.divU, Layer.anisotropyField, Tensor.interaction, AxialDriver.value, AxialDriver.ofVec, AxialDriver.null,
          ScalarDriver.value, ScalarDriver.null, ScalarDriver.constantDriver, Tensor.zero, CVec.dot, onlyAlong, constantField]
      | n + 2, hl => simp [prepared, Junction.builtJ, Junction.twoLayers] at hl

/-- helper: in equilibrium the trajectory stands still -/
theorem trajectory_rest {s k : Junction ℝ} (h : s.Equilibrium) {dt : ℝ} {N : ℕ} {M : ℕ → ℕ → CVec ℝ} (ht : Trajectory s k dt N M) (n q : ℕ) :
    M n q = magOf s.layers q ∧ k.layers.map Layer.mag = s.layers.map Layer.mag := by
  obtain ⟨r, m, s1, hg, hres, hk, hM⟩ := ht
  rw [Junction.solver_quiet s (fun l hl => by
    obtain ⟨i, hi⟩ := List.getElem?_of_mem hl
    exact (h i l hi).2.1)] at hg
  simp only [Out.ok, Out.mk.injEq, Except.ok.injEq, Prod.mk.injEq] at hg
  obtain ⟨⟨rfl, rfl⟩, rfl⟩ := hg
  have key : ∀ n, (steps (Junction.pickRunner s.layers.length .RK4) dt 0 n s).st.layers.map Layer.mag = s.layers.map Layer.mag := by
    intro n
    obtain ⟨k2, hk2, hm, -⟩ := Junction.C18_steps s h (Junction.pickRunner s.layers.length .RK4) Junction.pickRunner_single dt 0 n
    rw [hk2]
    exact hm
  refine ⟨?_, by rw [hk]; exact key N⟩
  have e : ∀ ls : List (Layer ℝ), magOf ls q = ((ls.map Layer.mag)[q]?).getD ⟨0, 0, 0⟩ := by
    intro ls
    unfold magOf
    rw [List.getElem?_map]
    cases ls[q]? <;> simp
  rw [hM, e, key, ← e]

/-- helper: the default resistance function for two layers -/
theorem series_two (u v : CVec ℝ) : series [0, 0] [0, 0] [0, 0] [1, 1] [0, 0] [[u], [v]] [1, 1] [1, 1] = .ok ([0], [u.z / 2 + v.z / 2]) := by
  simp [series, PyResistance.seriesResistance, PyResistance.computeResistance, PyResistance.layerRows, PyResistance.layerSample,
    PyResistance.sumRows]
  ring

/-- **C89**, refuted for two layers. A junction of two equal layers, both along z and at rest, with an anomalous Hall resistance of 1 in
each: its transverse resistance is 1, and PIMM with the default resistance function reports 1/2, because the magnetisations it passes
on carry the weights of the average. -/
theorem C89_refuted : ∃ row k, Reachable Junction.builtJ ∧
    pimm absDft restArgs (fun _ _ => ⟨0, 0, 0⟩) [⟨0, 0, 1⟩] Junction.builtJ = .ok ([row], none) k ∧
    (Junction.builtJ.layers.map Layer.mag = [⟨0, 0, 1⟩, ⟨0, 0, 1⟩] ∧ k.layers.map Layer.mag = [⟨0, 0, 1⟩, ⟨0, 0, 1⟩]) ∧
    row.Ry = [1 / 2] ∧ series [0, 0] [0, 0] [0, 0] [1, 1] [0, 0] [[⟨0, 0, 1⟩], [⟨0, 0, 1⟩]] [1, 1] [1, 1] = .ok ([0], [1]) := by
  have hd : DistinctIds Junction.builtJ := by
    simp [DistinctIds, Junction.builtJ, Junction.twoLayers, Junction.quietLayer, plainOf, Layer.demo]
  have hall : ∀ l ∈ Junction.builtJ.layers, l.id ≠ "all" := by
    simp [Junction.builtJ, Junction.twoLayers, Junction.quietLayer, plainOf, Layer.demo]
  have hfn : ∀ m, m.length = Junction.builtJ.layers.length → ∃ r, restArgs.resFn (restArgs.params.map (·.Rxx0)) (restArgs.params.map (·.Rxy0))
      (restArgs.params.map (·.Ramr)) (restArgs.params.map (·.Rahe)) (restArgs.params.map (·.Rsmr)) m (restArgs.params.map (·.l))
      (restArgs.params.map (·.w)) = .ok r := by
    intro m hm
    match m, hm with
    | [u, v], _ =>
      simp [restArgs, series, PyResistance.seriesResistance, PyResistance.computeResistance, PyResistance.layerRows]
  obtain ⟨rows, freqs, k, h⟩ := C87_completes Junction.built_reachable hd hall
    (by simp [Junction.builtJ, Junction.twoLayers, Junction.quietLayer, plainOf, Layer.demo])
    (by simp [Junction.builtJ, Junction.twoLayers, Junction.quietLayer, plainOf, Layer.demo, Noisy]) restArgs
    (by norm_num [restArgs, demoArgs]) (by norm_num [restArgs, demoArgs]) (by norm_num [restArgs, demoArgs]) rfl
    (by norm_num [restArgs, demoArgs]) (by norm_num [restArgs, demoArgs])
    (by simp [restArgs, Junction.builtJ, Junction.twoLayers]) (by simp [restArgs]) hfn (fun _ _ => ⟨0, 0, 0⟩) [⟨0, 0, 1⟩]
  have hscan := C87_scan Junction.built_reachable hd hall restArgs (by norm_num [restArgs, demoArgs]) (by norm_num [restArgs, demoArgs])
    (by norm_num [restArgs, demoArgs]) (by norm_num [restArgs, demoArgs]) _ _ rows freqs h
  obtain ⟨-, -, hlen, d, J, -, hJ0, hJk, hrow⟩ := hscan
  obtain ⟨row, rfl⟩ : ∃ row, rows = [row] := List.length_eq_one_iff.1 (by simpa using hlen)
  obtain ⟨-, -, M, hM, hrig, hres, -, hst, -⟩ := hrow 0 ⟨0, 0, 1⟩ row rfl rfl
  have hfl : ⌊restArgs.duration / restArgs.dt⌋₊ = 1 := by norm_num [restArgs, demoArgs]
  rw [hJ0] at hM
  have heq := rest_equilibrium d (fun q l => kicked restArgs.disturbance ⟨0, 0, 0⟩ l) (fun q l => by simp [kicked, restArgs, demoArgs])
  have hmags : (prepared Junction.builtJ ⟨0, 0, 1⟩ (onlyAlong .zaxis d) (fun q l => kicked restArgs.disturbance ⟨0, 0, 0⟩ l)).layers.map Layer.mag =
      [⟨0, 0, 1⟩, ⟨0, 0, 1⟩] := by
    simp [prepared, Junction.builtJ, Junction.twoLayers, Junction.quietLayer, plainOf, Layer.demo, kicked, restArgs, demoArgs]
  have hr := trajectory_rest heq hM
  have hk : k = J 1 := hJk.symm
  refine ⟨row, k, Junction.built_reachable, ?_, ⟨?_, ?_⟩, ?_, ?_⟩
  · rw [h, (hst rfl).2.2.2]
  · simp [Junction.builtJ, Junction.twoLayers, Junction.quietLayer, plainOf, Layer.demo]
  · rw [hk, (hr 0 0).2, hmags]
  · have hM1 : ∀ q, q < 2 → M 1 q = ⟨0, 0, 1⟩ := by
      intro q hq
      rw [(hr 1 q).1]
      interval_cases q <;>
        simp [magOf, prepared, Junction.builtJ, Junction.twoLayers, Junction.quietLayer, plainOf, Layer.demo, kicked, restArgs, demoArgs]
    have hJl : ∃ l1 l2, (J 1).layers = [l1, l2] ∧ l1.thickness * l1.Ms = 1 ∧ l2.thickness * l2.Ms = 1 := by
      have hrig' : (J 1).layers.map (fun l => (l.id, l.thickness, l.Ms)) = [("free", 1, 1), ("bottom", 1, 1)] := by
        rw [hrig]
        simp [Junction.builtJ, Junction.twoLayers, Junction.quietLayer, plainOf, Layer.demo]
      have hl2 : (J 1).layers.length = 2 := by simpa using congrArg List.length hrig'
      obtain ⟨l1, l2, hl⟩ := List.length_eq_two.1 hl2
      rw [hl] at hrig'
      simp only [List.map_cons, List.map_nil, List.cons.injEq, Prod.mk.injEq, and_true] at hrig'
      exact ⟨l1, l2, hl, by rw [hrig'.1.2.1, hrig'.1.2.2]; norm_num, by rw [hrig'.2.2.1, hrig'.2.2.2]; norm_num⟩
    obtain ⟨l1, l2, hl, w1, w2⟩ := hJl
    have hsh : sharedSamples (J 1).layers 1 M = [[⟨0, 0, 1 / 2⟩], [⟨0, 0, 1 / 2⟩]] := by
      have s1 : share [l1, l2] l1 = 1 / 2 := by simp [share, w1, w2]; norm_num
      have s2 : share [l1, l2] l2 = 1 / 2 := by simp [share, w1, w2]; norm_num
      simp [sharedSamples, hl, s1, s2, times, hM1 0 (by norm_num), hM1 1 (by norm_num)]
    rw [hfl, Nat.zero_add, hsh] at hres
    have hres' : series [0, 0] [0, 0] [0, 0] [1, 1] [0, 0] [[⟨0, 0, 1 / 2⟩], [⟨0, 0, 1 / 2⟩]] [1, 1] [1, 1] = .ok (row.Rx, row.Ry) := by
      simpa [restArgs] using hres
    rw [series_two] at hres'
    simp only [Except.ok.injEq, Prod.mk.injEq] at hres'
    rw [← hres'.2]
    norm_num
  · rw [series_two]
    norm_num

end Proc
