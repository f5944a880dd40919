import Verif.Props.PyProc

set_option linter.unusedSectionVars false

/-!
# C87 continued: when a scan returns, its parts, and the bound on the average
-/

namespace Proc
open Spec

/-- **C87.** What is refused before anything is done: a waiting time beyond the duration, a pulse of no length, a wrong number of
parameter sets. The junction is untouched. -/
theorem C87_refused (f : List ℝ → List ℝ) (a : PimmArgs ℝ) (noise : ℕ → ℕ → CVec ℝ) (Hs : List (CVec ℝ)) (j : Junction ℝ) :
    (a.duration < a.wait → pimm f a noise Hs j = .fail .valueError j) ∧
    (a.wait ≤ a.duration → a.dt * a.pulse ≤ 0 → pimm f a noise Hs j = .fail .stepTimes j) ∧
    (a.wait ≤ a.duration → 0 < a.dt * a.pulse → a.params.length ≠ j.layers.length → pimm f a noise Hs j = .fail .valueError j) := by
  refine ⟨fun h => ?_, fun h1 h2 => ?_, fun h1 h2 h3 => ?_⟩
  · unfold pimm
    rw [if_pos (by simpa using h)]
  · unfold pimm
    rw [if_neg (by simpa using h1), (ScalarDriver.C03_factory _ _ _ _).1.2 (by simpa using h2)]
  · unfold pimm
    obtain ⟨d, hd⟩ := (ScalarDriver.C03_factory (0 : ℝ) a.excitation 0 (a.dt * a.pulse)).2.2 (by simpa using h2)
    have hd' : ScalarDriver.stepDriver (@OfNat.ofNat ℝ 0 (Scalar.instOfNat 0)) a.excitation (@OfNat.ofNat ℝ 0 (Scalar.instOfNat 0))
        (a.dt * a.pulse) = .ok d := by
      simpa using hd
    rw [if_neg (by simpa using h1), hd']
    dsimp only
    rw [if_pos (by simpa using h3.symm)]

/-- A measurement without disturbance completes. -/
theorem measure_completes {j0 j : Junction ℝ} (hs : Scanned j0 j) (hg : ∀ l ∈ j.layers, l.Ms * l.thickness ≠ 0)
    (hq : ∀ l ∈ j.layers, ¬ Noisy l) (H : CVec ℝ) (oe : AxialDriver ℝ) (noise : ℕ → CVec ℝ) {T dt : ℝ} (hdt : 0 < dt) (hT : 0 ≤ T)
    (hb : T / dt < 2 ^ 32) : ∃ k, measure j (j0.layers.map Layer.id) H oe 0 noise T dt = .ok () k ∧
      (∀ l ∈ k.layers, l.Ms * l.thickness ≠ 0) ∧ ∀ l ∈ k.layers, ¬ Noisy l := by
  rw [measure_eq j (Junction.reachable_nonempty hs.reach), if_pos rfl, Out.bind_ok]
  obtain ⟨k, hk⟩ := Junction.C27_completes (primed j H oe) (reach_primed hs.reach H oe)
    (by simp only [primed, List.mem_map]; rintro l ⟨l0, h0, rfl⟩; exact hg l0 h0)
    (by simp only [primed, List.mem_map]; rintro l ⟨l0, h0, rfl⟩; exact hq l0 h0) T dt dt false .RK4 hdt hT hb le_rfl
    (by rw [div_self hdt.ne']; norm_num)
  have hsame := Junction.runSimulation_same (primed j H oe) T dt dt false .RK4
  rw [hk] at hsame
  refine ⟨k, hk, ?_⟩
  have hp : ∀ l ∈ (primed j H oe).layers, l.Ms * l.thickness ≠ 0 ∧ ¬ Noisy l := by
    simp only [primed, List.mem_map]
    rintro l ⟨l0, h0, rfl⟩
    exact ⟨hg l0 h0, hq l0 h0⟩
  have hk' : ∀ l ∈ k.layers, l.Ms * l.thickness ≠ 0 ∧ ¬ Noisy l :=
    Junction.sames_all (fun l l' h hl => by obtain ⟨m, c, g, b, n, rfl⟩ := h; exact hl) hsame hp
  exact ⟨fun l hl => (hk' l hl).1, fun l hl => (hk' l hl).2⟩

theorem loop_completes {j0 : Junction ℝ} (hd : DistinctIds j0) (hall : ∀ l ∈ j0.layers, l.id ≠ "all") (a : PimmArgs ℝ) (hdt : 0 < a.dt)
    (hT : a.dt ≤ a.duration) (hb : a.duration / a.dt < 2 ^ 32) (hdist : a.disturbance = 0)
    (hwait : a.static = false → keptSteps ⌊a.duration / a.dt⌋₊ a.dt a.wait ≠ [])
    (hres : ∀ m, m.length = j0.layers.length → ∃ r, resistances a.resFn a.params m = .ok r) (oe : AxialDriver ℝ) (noise : ℕ → ℕ → CVec ℝ) (Hs : List (CVec ℝ)) (n : ℕ)
    (f0 : Option (List ℝ)) (j : Junction ℝ) (hs : Scanned j0 j) (hg : ∀ l ∈ j.layers, l.Ms * l.thickness ≠ 0)
    (hq : ∀ l ∈ j.layers, ¬ Noisy l) :
    ∃ r k, pimmLoop absDft a (j0.layers.map Layer.id) (weightSum j0) oe noise n Hs f0 j = .ok r k := by
  induction Hs generalizing n f0 j with
  | nil => exact ⟨_, _, rfl⟩
  | cons H Hs ih =>
    have hT0 : 0 ≤ a.duration := hdt.le.trans hT
    obtain ⟨j1, hm, hg1, hq1⟩ := measure_completes hs hg hq H oe (noise n) hdt hT0 hb
    obtain ⟨hs1, M, -, hdata⟩ := measure_data hs hd hall hdt hT0 hb hm
    have hN : 0 < ⌊a.duration / a.dt⌋₊ := Nat.floor_pos.2 (by rwa [le_div_iff₀ hdt, one_mul])
    have hro : ∃ x, readOut absDft a (weightSum j0) j1 H = .ok x := by
      rw [← hs1.weight, readOut_eq hdata hN (Junction.reachable_nonempty hs1.reach) a rfl]
      obtain ⟨⟨Rx, Ry⟩, hr⟩ := hres ((sharedSamples j1.layers ⌊a.duration / a.dt⌋₊ M).map (lastN a.takeLast))
        (by have := congrArg List.length hs1.ids; simpa [sharedSamples] using this)
      rw [hr]
      dsimp only
      cases hst : a.static
      · rw [if_neg (by simp), if_neg (hwait hst)]
        exact ⟨_, rfl⟩
      · exact ⟨_, rfl⟩
    obtain ⟨⟨row, g⟩, hro⟩ := hro
    obtain ⟨r, k, hl⟩ := ih (n + 1) (if a.static then f0 else g) j1 hs1 hg1 hq1
    refine ⟨(row :: r.1, r.2), k, ?_⟩
    simp only [pimmLoop]
    rw [hdist, hm, Out.bind_ok, hro]
    dsimp only
    rw [hl, Out.bind_ok]

/-- **C87.** When a scan returns: a junction without noise and without a layer of vanishing moment, no disturbance, at least one step,
a sample left after the waiting time, a pulse of positive length, one parameter set per layer, and a resistance function that does not
raise for as many rows as layers. -/
theorem C87_completes {j : Junction ℝ} (hr : Reachable j) (hd : DistinctIds j) (hall : ∀ l ∈ j.layers, l.id ≠ "all")
    (hg : ∀ l ∈ j.layers, l.Ms * l.thickness ≠ 0) (hq : ∀ l ∈ j.layers, ¬ Noisy l) (a : PimmArgs ℝ) (hdt : 0 < a.dt)
    (hT : a.dt ≤ a.duration) (hb : a.duration / a.dt < 2 ^ 32) (hdist : a.disturbance = 0) (hw : a.wait ≤ a.duration) (hpulse : 0 < a.pulse)
    (hlen : a.params.length = j.layers.length) (hwait : a.static = false → a.wait ≤ (⌊a.duration / a.dt⌋₊ - 1 : ℕ) * a.dt)
    (hres : ∀ m, m.length = j.layers.length → ∃ r, a.resFn (a.params.map (·.Rxx0)) (a.params.map (·.Rxy0)) (a.params.map (·.Ramr)) (a.params.map (·.Rahe))
      (a.params.map (·.Rsmr)) m (a.params.map (·.l)) (a.params.map (·.w)) = .ok r)
    (noise : ℕ → ℕ → CVec ℝ) (Hs : List (CVec ℝ)) : ∃ rows freqs k, pimm absDft a noise Hs j = .ok (rows, freqs) k := by
  have hN : 0 < ⌊a.duration / a.dt⌋₊ := Nat.floor_pos.2 (by rwa [le_div_iff₀ hdt, one_mul])
  obtain ⟨d, hd'⟩ : ∃ d, ScalarDriver.stepDriver (@OfNat.ofNat ℝ 0 (Scalar.instOfNat 0)) a.excitation (@OfNat.ofNat ℝ 0 (Scalar.instOfNat 0))
      (a.dt * a.pulse) = .ok d := by
    rw [(ScalarDriver.C03_factory _ _ _ _).2]
    simpa using mul_pos hdt hpulse
  obtain ⟨⟨rows, freqs⟩, k, hl⟩ := loop_completes hd hall a hdt hT hb hdist
    (fun hst h0 => by
      have hmem : ⌊a.duration / a.dt⌋₊ - 1 ∈ keptSteps ⌊a.duration / a.dt⌋₊ a.dt a.wait := by
        unfold keptSteps
        rw [List.mem_filter]
        exact ⟨by simp; omega, by simpa using hwait hst⟩
      rw [h0] at hmem
      simp at hmem) hres (onAxis a.axis d) noise Hs 0 none j (.refl hr) hg hq
  refine ⟨rows, freqs, k, ?_⟩
  unfold pimm
  rw [if_neg (by simpa using hw), hd']
  dsimp only
  rw [if_neg (by simpa using hlen.symm)]
  exact hl

/-! ### A scan in two parts -/

section
variable {T : Type} [Scalar T]

theorem loop_append (f : List T → List T) (a : PimmArgs T) (ids : List String) (norm : T) (oe : AxialDriver T) (noise : ℕ → ℕ → CVec T)
    (Hs Hs' : List (CVec T)) (n : ℕ) (f0 : Option (List T)) (j : Junction T) :
    pimmLoop f a ids norm oe noise n (Hs ++ Hs') f0 j =
      (pimmLoop f a ids norm oe noise n Hs f0 j).bind fun r j1 =>
        (pimmLoop f a ids norm oe noise (n + Hs.length) Hs' r.2 j1).bind fun r' j2 => .ok (r.1 ++ r'.1, r'.2) j2 := by
  induction Hs generalizing n f0 j with
  | nil =>
    simp only [List.nil_append, pimmLoop, Out.bind_ok, List.length_nil, Nat.add_zero]
    rcases pimmLoop f a ids norm oe noise n Hs' f0 j with ⟨_ | ⟨r1, r2⟩, k⟩ <;> rfl
  | cons H Hs ih =>
    simp only [List.cons_append, pimmLoop]
    rcases measure j ids H oe a.disturbance (noise n) a.duration a.dt with ⟨_ | _, j1⟩
    · rfl
    · simp only [Out.bind]
      rcases readOut f a norm j1 H with e | ⟨row, g⟩
      · rfl
      · dsimp only
        rw [ih]
        rcases pimmLoop f a ids norm oe noise (n + 1) Hs (if a.static then f0 else g) j1 with ⟨_ | ⟨r1, r2⟩, k⟩
        · rfl
        · simp only [Out.bind, Out.ok]
          rw [show n + (H :: Hs).length = n + 1 + Hs.length by simp; omega]
          rcases pimmLoop f a ids norm oe noise (n + 1 + Hs.length) Hs' r2 k with ⟨_ | ⟨r1', r2'⟩, k'⟩ <;> rfl

theorem loop_shift (f : List T → List T) (a : PimmArgs T) (ids : List String) (norm : T) (oe : AxialDriver T) (noise : ℕ → ℕ → CVec T)
    (Hs : List (CVec T)) (n m : ℕ) (f0 : Option (List T)) (j : Junction T) :
    pimmLoop f a ids norm oe noise (n + m) Hs f0 j = pimmLoop f a ids norm oe (fun i => noise (i + m)) n Hs f0 j := by
  induction Hs generalizing n f0 j with
  | nil => rfl
  | cons H Hs ih =>
    simp only [pimmLoop]
    congr 1
    funext _ j
    rcases readOut f a norm j H with e | ⟨row, g⟩
    · rfl
    · dsimp only
      rw [show n + m + 1 = n + 1 + m by omega, ih]

theorem loop_start (f : List T → List T) (a : PimmArgs T) (ids : List String) (norm : T) (oe : AxialDriver T) (noise : ℕ → ℕ → CVec T)
    (H : CVec T) (Hs : List (CVec T)) (n : ℕ) (f0 f1 : Option (List T)) (j : Junction T) (hst : a.static = false) :
    pimmLoop f a ids norm oe noise n (H :: Hs) f0 j = pimmLoop f a ids norm oe noise n (H :: Hs) f1 j := by
  simp [pimmLoop, hst]

theorem loop_static (f : List T → List T) (a : PimmArgs T) (ids : List String) (norm : T) (oe : AxialDriver T) (noise : ℕ → ℕ → CVec T)
    (Hs : List (CVec T)) (n : ℕ) (f0 : Option (List T)) (j k : Junction T) (r : List (PimmRow T) × Option (List T)) (hst : a.static = true)
    (h : pimmLoop f a ids norm oe noise n Hs f0 j = .ok r k) : r.2 = f0 := by
  induction Hs generalizing n j r with
  | nil =>
    simp only [pimmLoop, Out.ok, Out.mk.injEq, Except.ok.injEq] at h
    rw [← h.1]
  | cons H Hs ih =>
    simp only [pimmLoop] at h
    generalize measure j ids H oe a.disturbance (noise n) a.duration a.dt = x at h
    rcases x with ⟨_ | _, j1⟩
    · simp [Out.bind, Out.ok] at h
    · simp only [Out.bind] at h
      generalize readOut f a norm j1 H = y at h
      rcases y with e | ⟨row, g⟩
      · simp [Out.fail, Out.ok] at h
      · simp only [hst, if_true] at h
        rcases hl : pimmLoop f a ids norm oe noise (n + 1) Hs f0 j1 with ⟨_ | r', k'⟩
        · rw [hl] at h; simp [Out.ok] at h
        · rw [hl] at h
          simp only [Out.ok, Out.mk.injEq, Except.ok.injEq] at h
          obtain ⟨rfl, rfl⟩ := h
          exact ih (n + 1) j1 r' hl

end

/-- **C87.** A scan over `Hs` followed by a scan over `Hs'` with the junction as the first left it (and the random numbers that follow) is
the scan over both: the records are those of the parts one after the other, and the final junction is the same. -/
theorem C87_parts {j : Junction ℝ} (hr : Reachable j) (hd : DistinctIds j) (hall : ∀ l ∈ j.layers, l.id ≠ "all") (a : PimmArgs ℝ)
    (hdt : 0 < a.dt) (hT : 0 ≤ a.duration) (hb : a.duration / a.dt < 2 ^ 32) (noise : ℕ → ℕ → CVec ℝ) (Hs Hs' : List (CVec ℝ)) :
    pimm absDft a noise (Hs ++ Hs') j =
      (pimm absDft a noise Hs j).bind fun r j1 =>
        (pimm absDft a (fun i => noise (i + Hs.length)) Hs' j1).bind fun r' j2 =>
          .ok (r.1 ++ r'.1, if Hs' = [] then r.2 else r'.2) j2 := by
  unfold pimm
  split
  · rfl
  split
  · rfl
  rename_i hw _ d hstep
  dsimp only
  by_cases hl : (j.layers.map Layer.id).length ≠ a.params.length
  · rw [if_pos hl, if_pos hl]
    rfl
  rw [if_neg hl, if_neg hl, loop_append]
  rcases h1 : pimmLoop absDft a (j.layers.map Layer.id) (weightSum j) (onAxis a.axis d) noise 0 Hs none j with ⟨_ | ⟨r1, r2⟩, k⟩
  · rfl
  simp only [Out.bind]
  have hs : Scanned j k := by
    obtain ⟨-, J, hJ0, hJk, hJs, -⟩ := pimmLoop_spec hd hall a hdt hT hb _ noise Hs 0 none j k (.refl hr) r1 r2 h1
    rw [← hJk]
    exact hJs _ le_rfl
  have hids : k.layers.map (fun x => x.id) = j.layers.map Layer.id := hs.ids
  rw [hids, if_neg hl, hs.weight, loop_shift]
  rw [show (j.layers.map fun x => x.id) = j.layers.map Layer.id from rfl]
  have hstart : pimmLoop absDft a (j.layers.map Layer.id) (weightSum j) (onAxis a.axis d) (fun i => noise (i + Hs.length)) 0 Hs' r2 k =
      (pimmLoop absDft a (j.layers.map Layer.id) (weightSum j) (onAxis a.axis d) (fun i => noise (i + Hs.length)) 0 Hs' none k).bind fun r' j2 =>
        .ok (r'.1, if Hs' = [] then r2 else r'.2) j2 := by
    cases Hs' with
    | nil => simp [pimmLoop, Out.bind, Out.ok]
    | cons H Hs' =>
      have e : pimmLoop absDft a (j.layers.map Layer.id) (weightSum j) (onAxis a.axis d) (fun i => noise (i + Hs.length)) 0 (H :: Hs') r2 k =
          pimmLoop absDft a (j.layers.map Layer.id) (weightSum j) (onAxis a.axis d) (fun i => noise (i + Hs.length)) 0 (H :: Hs') none k := by
        cases hst : a.static
        · exact loop_start _ _ _ _ _ _ _ _ _ _ _ _ hst
        · have h2 : r2 = none := loop_static _ _ _ _ _ _ _ _ _ _ _ _ hst h1
          rw [h2]
      rw [e]
      rcases pimmLoop absDft a (j.layers.map Layer.id) (weightSum j) (onAxis a.axis d) (fun i => noise (i + Hs.length)) 0 (H :: Hs') none k with
        ⟨_ | _, _⟩ <;> simp [Out.bind, Out.ok]
  rw [hstart]
  rcases pimmLoop absDft a (j.layers.map Layer.id) (weightSum j) (onAxis a.axis d) (fun i => noise (i + Hs.length)) 0 Hs' none k with
    ⟨_ | ⟨r1', r2'⟩, k'⟩ <;> simp [Out.bind, Out.ok]

/-! ### The average -/

theorem average_dot (ls : List (Layer ℝ)) (w : Layer ℝ → ℝ) (hw : ∀ l ∈ ls, 0 ≤ w l)
    (hu : ∀ l ∈ ls, l.mag.x ^ 2 + l.mag.y ^ 2 + l.mag.z ^ 2 ≤ 1) (S : CVec ℝ) :
    (ls.map fun l => w l * l.mag.x).sum * S.x + (ls.map fun l => w l * l.mag.y).sum * S.y + (ls.map fun l => w l * l.mag.z).sum * S.z ≤
      (ls.map w).sum * √(S.x ^ 2 + S.y ^ 2 + S.z ^ 2) := by
  induction ls with
  | nil => simp
  | cons l ls ih =>
    have h1 := ih (fun l hl => hw l (by simp [hl])) (fun l hl => hu l (by simp [hl]))
    have h2 : l.mag.x * S.x + l.mag.y * S.y + l.mag.z * S.z ≤ √(S.x ^ 2 + S.y ^ 2 + S.z ^ 2) := by
      apply Real.le_sqrt_of_sq_le
      have := hu l (by simp)
      nlinarith [sq_nonneg (l.mag.x * S.y - l.mag.y * S.x), sq_nonneg (l.mag.y * S.z - l.mag.z * S.y),
        sq_nonneg (l.mag.z * S.x - l.mag.x * S.z), sq_nonneg S.x, sq_nonneg S.y, sq_nonneg S.z,
        mul_nonneg (sub_nonneg.2 this) (add_nonneg (add_nonneg (sq_nonneg S.x) (sq_nonneg S.y)) (sq_nonneg S.z))]
    have h3 := mul_le_mul_of_nonneg_left h2 (hw l (by simp))
    simp only [List.map_cons, List.sum_cons]
    nlinarith

/-- **C87.** The average magnetisation of a stack of layers of non-negative moment, not all zero, is no longer than 1. -/
theorem C87_average (ls : List (Layer ℝ)) (hw : ∀ l ∈ ls, 0 ≤ l.thickness * l.Ms) (hs : 0 < (ls.map fun l => l.thickness * l.Ms).sum)
    (hu : ∀ l ∈ ls, l.mag.x ^ 2 + l.mag.y ^ 2 + l.mag.z ^ 2 ≤ 1) :
    (averageMag ls).x ^ 2 + (averageMag ls).y ^ 2 + (averageMag ls).z ^ 2 ≤ 1 := by
  have h1 := average_dot ls (share ls) (fun l hl => div_nonneg (hw l hl) hs.le) hu (averageMag ls)
  have h2 : (ls.map (share ls)).sum = 1 := by
    unfold share
    simp only [div_eq_mul_inv]
    rw [List.sum_map_mul_right]
    exact mul_inv_cancel₀ hs.ne'
  rw [h2, one_mul] at h1
  have h3 : (averageMag ls).x ^ 2 + (averageMag ls).y ^ 2 + (averageMag ls).z ^ 2 ≤
      √((averageMag ls).x ^ 2 + (averageMag ls).y ^ 2 + (averageMag ls).z ^ 2) := by
    refine le_trans (le_of_eq ?_) h1
    simp only [averageMag]
    ring
  have h4 := Real.sqrt_nonneg ((averageMag ls).x ^ 2 + (averageMag ls).y ^ 2 + (averageMag ls).z ^ 2)
  have h5 := Real.sq_sqrt (show 0 ≤ (averageMag ls).x ^ 2 + (averageMag ls).y ^ 2 + (averageMag ls).z ^ 2 by positivity)
  nlinarith

/-- The junction `builtJ` of two layers under a scan of two fields meets the hypotheses of `C87_scan`. -/
noncomputable def demoArgs : PimmArgs ℝ where
  dt := 1
  params := [⟨0, 0, 1, 0, 0, 1, 1⟩, ⟨0, 0, 1, 0, 0, 1, 1⟩]
  axis := .zaxis
  excitation := 0
  pulse := 3
  duration := 5
  wait := 1
  maxFrequency := 1
  resFn := fun _ _ _ _ _ m _ _ => .ok (m.map fun vs => (vs.map CVec.x).sum, m.map fun vs => (vs.map CVec.y).sum)
  disturbance := 0
  takeLast := 2
  full := true
  static := false

example : Reachable Junction.builtJ ∧ DistinctIds Junction.builtJ ∧ (∀ l ∈ Junction.builtJ.layers, l.id ≠ "all") ∧
    ∃ rows freqs k, pimm absDft demoArgs (fun _ _ => ⟨0, 0, 0⟩) [⟨1, 0, 0⟩, ⟨2, 0, 0⟩] Junction.builtJ = .ok (rows, freqs) k := by
  have hd : DistinctIds Junction.builtJ := by
    simp [DistinctIds, Junction.builtJ, Junction.twoLayers, Junction.quietLayer, plainOf, Layer.demo]
  have hall : ∀ l ∈ Junction.builtJ.layers, l.id ≠ "all" := by
    simp [Junction.builtJ, Junction.twoLayers, Junction.quietLayer, plainOf, Layer.demo]
  refine ⟨Junction.built_reachable, hd, hall, ?_⟩
  refine C87_completes Junction.built_reachable hd hall ?_ ?_ demoArgs ?_ ?_ ?_ rfl ?_ ?_ ?_ ?_ ?_ _ _
  · simp [Junction.builtJ, Junction.twoLayers, Junction.quietLayer, plainOf, Layer.demo]
  · simp [Junction.builtJ, Junction.twoLayers, Junction.quietLayer, plainOf, Layer.demo, Noisy]
  · norm_num [demoArgs]
  · norm_num [demoArgs]
  · norm_num [demoArgs]
  · norm_num [demoArgs]
  · norm_num [demoArgs]
  · simp [demoArgs, Junction.builtJ, Junction.twoLayers]
  · norm_num [demoArgs]
  · exact fun m _ => ⟨_, rfl⟩

end Proc
