import Verif.Lemmas.LimitStep
import Mathlib.Topology.Algebra.Order.Floor

/-!
# C121: runs in finite precision tend to the run in real arithmetic

The model of this file is the one of the other properties, executed in a family of arithmetics whose rounding errors
tend to zero.
-/

set_option linter.unusedSectionVars false

open Filter Topology

namespace Spec
variable {ι : Type} {T : ι → Type} [∀ i, Scalar (T i)] {u : ι → ℝ}

/-- Columns of numbers tend to a column of real numbers: eventually they have its length, and every entry tends to the
entry in the same place. -/
def ColumnTends (R : ∀ i, Rounding (T i) (u i)) (F : Filter ι) (X : ∀ i, List (T i)) (x : List ℝ) : Prop :=
  (∀ᶠ i in F, (X i).length = x.length) ∧
    ∀ p < x.length, Tendsto (fun i => (R i).val ((X i).getD p 0)) F (𝓝 (x.getD p 0))

/-- The states after `0, 1, …, N` steps of the real run, from the state `j`. -/
noncomputable def states (r : Junction.Runner) (dt : ℝ) (j : Junction ℝ) (m : Nat) : List (Layer ℝ) := (steps r dt 0 m j).st.layers

end Spec

namespace Junction
open Spec Layer
variable {ι : Type} {F : Filter ι} {T : ι → Type} [∀ i, Scalar (T i)] {u : ι → ℝ} {R : ∀ i, Rounding (T i) (u i)}

theorem steps_succ_inv {T : Type} [Scalar T] {r : Runner} {dt : T} {i n : Nat} {j : Junction T}
    (h : (steps r dt i (n + 1) j).res = .ok ()) :
    ∃ k, j.runStep r (Scalar.lit (i : ℚ) * dt) dt = .ok () k ∧ ∀ m, steps r dt i (m + 1) j = steps r dt (i + 1) m k := by
  rcases hs : j.runStep r (Scalar.lit (i : ℚ) * dt) dt with ⟨e | x, k⟩
  · simp [steps, hs, Out.bind] at h
  · refine ⟨k, by simp [Out.ok], fun m => ?_⟩
    simp only [steps, hs]
    rfl

theorem steps_lim (hu : Tendsto u F (𝓝 0)) {r : Runner} {dt : ∀ i, T i} {d : ℝ} (hd : Lim R F dt d) (h0 : 0 < d) (n : Nat) :
    ∀ (s : Nat) (J : ∀ i, Junction (T i)) (j : Junction ℝ), JLim R F J j → (r = .single → j.layers.length = 1) →
    (∀ᶠ i in F, ∀ l ∈ (J i).layers, ¬ Noisy l) → (∀ l ∈ j.layers, ¬ Noisy l) →
    (∀ᶠ i in F, (steps r (dt i) s n (J i)).res = .ok ()) → (steps r d s n j).res = .ok () →
    (∀ m < n, ∀ (q : Nat) (l : Layer ℝ), (steps r d s m j).st.layers[q]? = some l →
      Regular r (steps r d s m j).st.layers (((s + m : ℕ) : ℝ) * d) d q l) →
    (∀ m < n, ∀ l ∈ (steps r d s (m + 1) j).st.layers, l.mag ≠ ⟨0, 0, 0⟩) →
    JLim R F (fun i => (steps r (dt i) s n (J i)).st) (steps r d s n j).st := by
  induction n with
  | zero => intro s J j hj _ _ _ _ _ _ _; exact hj
  | succ n ih =>
    intro s J j hj hr hQ hq hK hk hreg hne
    obtain ⟨k, hk1, hk2⟩ := steps_succ_inv hk
    have hex : ∀ i, ∃ K, (steps r (dt i) s (n + 1) (J i)).res = .ok () →
        (J i).runStep r (Scalar.lit (s : ℚ) * dt i) (dt i) = .ok () K ∧ ∀ m, steps r (dt i) s (m + 1) (J i) = steps r (dt i) (s + 1) m K := by
      intro i
      by_cases h : (steps r (dt i) s (n + 1) (J i)).res = .ok ()
      · obtain ⟨K, h1, h2⟩ := steps_succ_inv h
        exact ⟨K, fun _ => ⟨h1, h2⟩⟩
      · exact ⟨J i, fun h' => absurd h' h⟩
    choose K hK' using hex
    have hK1 : ∀ᶠ i in F, (J i).runStep r (Scalar.lit (s : ℚ) * dt i) (dt i) = .ok () (K i) := hK.mono fun i h => (hK' i h).1
    have hreg0 := hreg 0 (Nat.succ_pos _)
    have hne0 := hne 0 (Nat.succ_pos _)
    simp only [Nat.add_zero, steps] at hreg0
    rw [hk2] at hne0
    simp only [steps] at hne0
    have hs : (Scalar.lit (s : ℚ) * d : ℝ) = (s : ℝ) * d := by simp
    have hjk : JLim R F K k := by
      refine hj.step hu (Lim.mul hu (Lim.lit hu (s : ℚ)) hd) hd h0 hr hQ hq hK1 hk1 ?_ ?_
      · intro q l hl
        have := hreg0 q l hl
        rw [← hs] at this
        exact this
      · exact hne0
    have hsame := runStep_same j r (Scalar.lit (s : ℚ) * d) d
    rw [hk1] at hsame
    dsimp only [Out.ok] at hsame
    have main := ih (s + 1) K k hjk (fun h => by rw [← hsame.length_eq]; exact hr h)
      (by
        filter_upwards [hQ, hK1] with i a1 a2
        have := runStep_same (J i) r (Scalar.lit (s : ℚ) * dt i) (dt i)
        rw [a2] at this
        exact sames_all (fun _ _ h => (not_congr (Same_noisy h)).2) this a1)
      (sames_all (fun _ _ h => (not_congr (Same_noisy h)).2) hsame hq)
      (hK.mono fun i h => by rw [← (hK' i h).2]; exact h) (by rw [← hk2]; exact hk)
      (fun m hm q l hl => by
        have := hreg (m + 1) (by omega) q l (by rw [hk2]; exact hl)
        rw [hk2, show s + (m + 1) = s + 1 + m by ring] at this
        exact this)
      (fun m hm l hl => hne (m + 1) (by omega) l (by rw [hk2]; exact hl))
    rw [hk2]
    exact ⟨by filter_upwards [hK, main.length] with i a1 a2; rw [(hK' i a1).2]; exact a2, fun q l hl => by
      obtain ⟨L, h1, h2⟩ := main.layers q l hl
      exact ⟨L, by filter_upwards [hK, h1] with i a1 a2; rw [(hK' i a1).2]; exact a2, h2⟩⟩

/-- helper -/
theorem steps_prefix {T : Type} [Scalar T] {r : Runner} {dt : T} {n : Nat} :
    ∀ {i : Nat} {j : Junction T}, (steps r dt i n j).res = .ok () → ∀ m ≤ n, (steps r dt i m j).res = .ok () := by
  induction n with
  | zero => intro i j h m hm; rw [Nat.le_zero.1 hm]; exact h
  | succ n ih =>
    intro i j h m hm
    cases m with
    | zero => rfl
    | succ m =>
      obtain ⟨k, -, h2⟩ := steps_succ_inv h
      rw [h2] at h ⊢
      exact ih h m (by omega)

/-- helper -/
theorem ColumnTends.append {X Y : ∀ i, List (T i)} {x y : List ℝ} (hx : ColumnTends R F X x) (hy : ColumnTends R F Y y) :
    ColumnTends R F (fun i => X i ++ Y i) (x ++ y) := by
  refine ⟨by filter_upwards [hx.1, hy.1] with i a b; simp [a, b], fun p hp => ?_⟩
  rw [List.length_append] at hp
  by_cases h : p < x.length
  · rw [List.getD_eq_getElem?_getD, List.getElem?_append_left h, ← List.getD_eq_getElem?_getD]
    refine (hx.2 p h).congr' (hx.1.mono fun i e => ?_)
    beta_reduce
    rw [List.getD_eq_getElem?_getD, List.getD_eq_getElem?_getD, List.getElem?_append_left (by omega)]
  · rw [List.getD_eq_getElem?_getD, List.getElem?_append_right (by omega), ← List.getD_eq_getElem?_getD]
    refine (hy.2 (p - x.length) (by omega)).congr' (hx.1.mono fun i e => ?_)
    beta_reduce
    rw [List.getD_eq_getElem?_getD, List.getD_eq_getElem?_getD, List.getElem?_append_right (by omega), e]

/-- helper -/
theorem ColumnTends.map (xs : List Nat) {f : ∀ i, Nat → T i} {g : Nat → ℝ} (h : ∀ m ∈ xs, Lim R F (fun i => f i m) (g m)) :
    ColumnTends R F (fun i => xs.map (f i)) (xs.map g) := by
  refine ⟨.of_forall fun i => by simp, fun p hp => ?_⟩
  rw [List.length_map] at hp
  have e : ∀ {β : Type} (φ : Nat → β) (z : β), (xs.map φ).getD p z = φ xs[p] := by
    intro β φ z
    rw [List.getD_eq_getElem?_getD, List.getElem?_map, List.getElem?_eq_getElem hp]; rfl
  rw [e]
  exact (h xs[p] (List.getElem_mem hp)).congr (.of_forall fun i => by beta_reduce; rw [e])

/-- helper -/
theorem JLim.magOf (hu : Tendsto u F (𝓝 0)) {J : ∀ i, Junction (T i)} {j : Junction ℝ} (hj : JLim R F J j) (q : Nat) :
    VLim R F (fun i => Spec.magOf (J i).layers q) (Spec.magOf j.layers q) := by
  rcases hq : j.layers[q]? with _ | l
  · have hle := List.getElem?_eq_none_iff.1 hq
    have e : Spec.magOf j.layers q = .zero := by simp only [Spec.magOf, hq]; rfl
    rw [e]
    refine (VLim.zero hu).congr (hj.length.mono fun i hi => ?_)
    simp only [Spec.magOf, List.getElem?_eq_none (show (J i).layers.length ≤ q by omega)]; rfl
  · obtain ⟨L, h1, h2⟩ := hj.layers q l hq
    have e : Spec.magOf j.layers q = l.mag := by simp only [Spec.magOf, hq]
    rw [e]
    refine h2.mag.congr (h1.mono fun i hi => ?_)
    simp only [Spec.magOf, hi]

/-- C121. Take one junction and the arguments of one run in arithmetics whose rounding errors tend to zero, and suppose
that the counts of steps are eventually those of real arithmetic. If the real run meets no jump and no zero
magnetisation, the final magnetisations and all logged times and magnetisations tend to those of the real run. -/
theorem C121_run (hu : Tendsto u F (𝓝 0)) {J K : ∀ i, Junction (T i)} {j k : Junction ℝ} (hJ : JLim R F J j)
    (hRJ : ∀ i, Reachable (J i)) (hDJ : ∀ i, DistinctIds (J i)) (hRj : Reachable j) (hDj : DistinctIds j)
    (hQ : ∀ i, ∀ l ∈ (J i).layers, ¬ Noisy l) (hq : ∀ l ∈ j.layers, ¬ Noisy l)
    (hlog : ∀ key, ColumnTends R F (fun i => (J i).log.col key) (j.log.col key))
    {total dt wf : ∀ i, T i} {D δ w : ℝ} (hδ : Lim R F dt δ) (h0 : 0 < δ) {N W : Nat} {en : Bool} {mode : SolverMode}
    (hN : Scalar.toUInt (D / δ) = some N) (hW : Scalar.toUInt (w / δ) = some W)
    (hNi : ∀ᶠ i in F, Scalar.toUInt (total i / dt i) = some N) (hWi : ∀ᶠ i in F, Scalar.toUInt (wf i / dt i) = some W)
    (hK : ∀ᶠ i in F, (J i).runSimulation (total i) (dt i) (wf i) en mode = .ok () (K i))
    (hk : j.runSimulation D δ w en mode = .ok () k) {r : Runner} (hr : r = pickRunner j.layers.length mode)
    (hreg : ∀ m < N, ∀ (q : Nat) (l : Layer ℝ), (states r δ j m)[q]? = some l → Regular r (states r δ j m) (m * δ) δ q l)
    (hne : ∀ m < N, ∀ l ∈ states r δ j (m + 1), l.mag ≠ ⟨0, 0, 0⟩) :
    (∀ q, Tendsto (fun i => (R i).val (magOf (K i).layers q).x) F (𝓝 (magOf k.layers q).x) ∧
      Tendsto (fun i => (R i).val (magOf (K i).layers q).y) F (𝓝 (magOf k.layers q).y) ∧
      Tendsto (fun i => (R i).val (magOf (K i).layers q).z) F (𝓝 (magOf k.layers q).z)) ∧
    ColumnTends R F (fun i => (K i).log.col "time") (k.log.col "time") ∧
    ∀ l ∈ j.layers, ∀ c ∈ ["_mx", "_my", "_mz"], ColumnTends R F (fun i => (K i).log.col (l.id ++ c)) (k.log.col (l.id ++ c)) := by
  obtain ⟨N', W', r', m', j', e1, e2, e3, -, hres, hlay, -, htime, hcols⟩ := C27_run hRj hDj hk
  rw [hN] at e1; cases e1
  rw [hW] at e2; cases e2
  rw [solver_quiet j hq] at e3
  simp only [Out.ok, Out.mk.injEq, Except.ok.injEq, Prod.mk.injEq] at e3
  obtain ⟨⟨e3, -⟩, e4⟩ := e3
  rw [← hr] at e3
  subst e3; subst e4
  have hrs : r = .single → j.layers.length = 1 := fun h => pickRunner_single (hr.symm.trans h)
  have hall : ∀ᶠ i in F, (steps r (dt i) 0 N (J i)).res = .ok () ∧ (K i).layers = (steps r (dt i) 0 N (J i)).st.layers ∧
      (K i).log.col "time" = (J i).log.col "time" ++ (sampleSteps N W).map (fun m : Nat => Scalar.lit (m : ℚ) * dt i) ∧
      ∀ (q : Nat) (l : Layer (T i)), (J i).layers[q]? = some l →
        (K i).log.col (l.id ++ "_mx") = (J i).log.col (l.id ++ "_mx")
          ++ (sampleSteps N W).map (fun m => (Spec.magOf (steps r (dt i) 0 (m + 1) (J i)).st.layers q).x) ∧
        (K i).log.col (l.id ++ "_my") = (J i).log.col (l.id ++ "_my")
          ++ (sampleSteps N W).map (fun m => (Spec.magOf (steps r (dt i) 0 (m + 1) (J i)).st.layers q).y) ∧
        (K i).log.col (l.id ++ "_mz") = (J i).log.col (l.id ++ "_mz")
          ++ (sampleSteps N W).map (fun m => (Spec.magOf (steps r (dt i) 0 (m + 1) (J i)).st.layers q).z) := by
    filter_upwards [hNi, hWi, hK, hJ.length] with i a1 a2 a3 a4
    obtain ⟨N', W', r', m', j', e1, e2, e3, -, hres, hlay, -, htime, hcols⟩ := C27_run (hRJ i) (hDJ i) a3
    rw [a1] at e1; cases e1
    rw [a2] at e2; cases e2
    rw [solver_quiet (J i) (hQ i)] at e3
    simp only [Out.ok, Out.mk.injEq, Except.ok.injEq, Prod.mk.injEq] at e3
    obtain ⟨⟨e3, -⟩, e4⟩ := e3
    rw [a4, ← hr] at e3
    subst e3; subst e4
    exact ⟨hres, hlay, htime, hcols⟩
  have hlim : ∀ m ≤ N, JLim R F (fun i => (steps r (dt i) 0 m (J i)).st) (steps r δ 0 m j).st := by
    intro m hm
    refine steps_lim hu hδ h0 m 0 J j hJ hrs (.of_forall hQ) hq (hall.mono fun i h => steps_prefix h.1 m hm) (steps_prefix hres m hm) ?_ ?_
    · intro p hp q l hl
      rw [Nat.zero_add]
      exact hreg p (by omega) q l hl
    · intro p hp l hl
      exact hne p (by omega) l hl
  have hcol : ∀ (q m : Nat), m ∈ sampleSteps N W → VLim R F (fun i => Spec.magOf (steps r (dt i) 0 (m + 1) (J i)).st.layers q)
      (Spec.magOf (steps r δ 0 (m + 1) j).st.layers q) := by
    intro q m hm
    exact JLim.magOf hu (hlim (m + 1) ((C27_sample_steps N W m).1 hm).1) q
  have cong : ∀ {X Y : ∀ i, List (T i)} {x : List ℝ}, ColumnTends R F X x → (∀ᶠ i in F, Y i = X i) → ColumnTends R F Y x := by
    intro X Y x h e
    exact ⟨by filter_upwards [h.1, e] with i a b; rw [b, a], fun p hp => (h.2 p hp).congr' (e.mono fun i b => by beta_reduce; rw [b])⟩
  refine ⟨fun q => ?_, ?_, fun l hl c hc => ?_⟩
  · have h1 := JLim.magOf hu (hlim N le_rfl) q
    rw [hlay]
    have h2 := h1.congr (w := fun i => Spec.magOf (K i).layers q) (hall.mono fun i h => by rw [h.2.1])
    exact ⟨h2.x, h2.y, h2.z⟩
  · rw [htime]
    refine cong (ColumnTends.append (hlog _) (ColumnTends.map _ fun m hm => ?_)) (hall.mono fun i h => h.2.2.1)
    exact .mul hu (.lit hu _) hδ
  · obtain ⟨q, hq'⟩ := List.mem_iff_getElem?.1 hl
    obtain ⟨L, hL1, hL2⟩ := hJ.layers q l hq'
    obtain ⟨c1, c2, c3⟩ := hcols q l hq'
    have hids := (hall.and hL1).mono fun i a => (hL2.id i ▸ a.1.2.2.2 q _ a.2 : _ ∧ _ ∧ _)
    simp only [List.mem_cons, List.not_mem_nil, or_false] at hc
    rcases hc with rfl | rfl | rfl
    · rw [c1]
      exact cong (ColumnTends.append (hlog _) (ColumnTends.map _ fun m hm => (hcol q m hm).x)) (hids.mono fun i h => h.1)
    · rw [c2]
      exact cong (ColumnTends.append (hlog _) (ColumnTends.map _ fun m hm => (hcol q m hm).y)) (hids.mono fun i h => h.2.1)
    · rw [c3]
      exact cong (ColumnTends.append (hlog _) (ColumnTends.map _ fun m hm => (hcol q m hm).z)) (hids.mono fun i h => h.2.2)

/-- C121: the counts are eventually those of real arithmetic if the quotient of the two durations is not an integer. -/
theorem C121_counts (hu : Tendsto u F (𝓝 0)) {total dt : ∀ i, T i} {D δ : ℝ} (hD : Lim R F total D) (hδ : Lim R F dt δ) (h0 : δ ≠ 0)
    (hn : ∀ n : ℕ, D / δ ≠ n) (h1 : 0 ≤ D / δ) (h2 : D / δ < 2 ^ 32) :
    Scalar.toUInt (D / δ) = some ⌊D / δ⌋₊ ∧ ∀ᶠ i in F, Scalar.toUInt (total i / dt i) = some ⌊D / δ⌋₊ := by
  refine ⟨toUInt_floor _ h1 (by norm_num at h2 ⊢; exact h2), ?_⟩
  have hq := Lim.div hu hD hδ h0
  have hlo : (⌊D / δ⌋₊ : ℝ) < D / δ := lt_of_le_of_ne (Nat.floor_le h1) (fun e => hn _ e.symm)
  have hhi : D / δ < (⌊D / δ⌋₊ : ℝ) + 1 := Nat.lt_floor_add_one _
  filter_upwards [hq.eventually (lt_mem_nhds hlo), hq.eventually (gt_mem_nhds hhi),
    hq.eventually (gt_mem_nhds (show D / δ < 4294967296 by norm_num at h2; exact h2))] with i a b c
  rw [(R i).toUInt]
  have hp : 0 ≤ (R i).val (total i / dt i) := le_trans (Nat.cast_nonneg _) a.le
  rw [toUInt_floor _ hp c]
  congr 1
  exact (Nat.floor_eq_iff hp).2 ⟨a.le, b⟩

/-- C121: junctions without spin transfer torque whose drivers have no jumps at all meet no jump. -/
theorem C121_smooth {j : Junction ℝ} (h : ∀ l ∈ j.layers, l.includeSTT = false ∧ ∀ t, Calm l t) (r : Runner) (δ : ℝ) (m : Nat) (q : Nat)
    (l : Layer ℝ) (hl : (states r δ j m)[q]? = some l) : Regular r (states r δ j m) (m * δ) δ q l := by
  have hs : List.Forall₂ Same j.layers (states r δ j m) := by
    unfold states
    rw [steps_eq_evolve]; exact evolve_same r δ m 0 j
  have hall := sames_all (P := fun l => l.includeSTT = false ∧ ∀ t, Calm l t)
    (fun l l' hs h => by
      obtain ⟨m, d, g, e, n, rfl⟩ := hs
      exact ⟨h.1, fun t => by obtain ⟨⟩ := h.2 t; constructor <;> assumption⟩) hs h
  obtain ⟨h1, h2⟩ := hall l (List.mem_of_getElem? hl)
  have sm : ∀ t m b a, SmoothAt l t m b a := fun t m b a => ⟨h2 t, fun h => by rw [h1] at h; cases h⟩
  cases r with
  | single => exact fun x _ => sm _ _ _ _
  | multi => exact fun x _ => sm _ _ _ _
  | eulerHeun => exact sm _ _ _ _
  | heun => exact ⟨sm _ _ _ _, sm _ _ _ _⟩

/-- C121: the rounded runs eventually succeed. -/
theorem C121_completes (hu : Tendsto u F (𝓝 0)) {J : ∀ i, Junction (T i)} {j : Junction ℝ}
    (hJ : JLim R F J j) (hRJ : ∀ i, Reachable (J i)) (hg : ∀ l ∈ j.layers, l.Ms * l.thickness ≠ 0)
    (hQ : ∀ i, ∀ l ∈ (J i).layers, ¬ Noisy l) {total dt wf : ∀ i, T i} {δ w : ℝ} (hδ : Lim R F dt δ) (hw : Lim R F wf w) (h : δ < w)
    {N W : Nat} (hNi : ∀ᶠ i in F, Scalar.toUInt (total i / dt i) = some N) (hWi : ∀ᶠ i in F, Scalar.toUInt (wf i / dt i) = some W)
    (hW0 : W ≠ 0) (en : Bool) (mode : SolverMode) :
    ∀ᶠ i in F, ∃ K, (J i).runSimulation (total i) (dt i) (wf i) en mode = .ok () K := by
  have hG : ∀ᶠ i in F, ∀ q ∈ Finset.range j.layers.length, ∀ l, (J i).layers[q]? = some l → l.Guard := by
    rw [Filter.eventually_all_finset]
    intro q hq
    have hlt := Finset.mem_range.1 hq
    obtain ⟨L, h1, h2⟩ := hJ.layers q _ (List.getElem?_eq_getElem hlt)
    have he := Lim.eqb (Lim.mul hu h2.Ms h2.thickness) (Lim.lit hu 0) (by simpa using hg _ (List.getElem_mem hlt))
    filter_upwards [h1, he] with i a b l hl
    rw [a] at hl; cases hl
    exact b
  have hlt := Lim.ltb hw hδ h.ne'
  filter_upwards [hJ.length, hG, hNi, hWi, hlt] with i a1 a2 a3 a4 a5
  refine C27_completes_any (fun x => by unfold Scalar.isNan; rw [(R i).eqb]; simp) (J i) (hRJ i) (fun l hl => ?_) (hQ i) _ _ _ en mode ?_ a3 a4 hW0
  · obtain ⟨q, hq⟩ := List.mem_iff_getElem?.1 hl
    exact a2 q (Finset.mem_range.2 (by rw [← a1]; exact (List.getElem?_eq_some_iff.1 hq).1)) l hq
  · rw [a5]
    simpa using h.le

/-- C121: layers built by a constructor from arguments that tend to those of `l` tend to `l`. -/
theorem C121_layer (hu : Tendsto u F (𝓝 0)) {id : String} {mag anis : ∀ i, CVec (T i)} {Ms d S α f g sl β P : ∀ i, T i} {N : ∀ i, Tensor (T i)}
    {gs : ∀ i, Nat → T i} {src : ∀ i, Nat → Axis → Nat → Nat → T i} {L : ∀ i, Layer (T i)}
    (hL : ∀ i, Layer.mk' id (mag i) (anis i) (Ms i) (d i) (S i) (N i) (α i) (f i) (g i) (sl i) (β i) (P i) (gs i) (src i) = .ok (L i))
    {mag0 anis0 : CVec ℝ} {Ms0 d0 S0 α0 f0 g0 sl0 β0 P0 : ℝ} {N0 : Tensor ℝ} {gs0 : Nat → ℝ} {src0 : Nat → Axis → Nat → Nat → ℝ} {l : Layer ℝ}
    (hl : Layer.mk' id mag0 anis0 Ms0 d0 S0 N0 α0 f0 g0 sl0 β0 P0 gs0 src0 = .ok l)
    (h1 : VLim R F mag mag0) (h2 : VLim R F anis anis0) (h3 : Lim R F Ms Ms0) (h4 : Lim R F d d0) (h5 : TLim R F N N0)
    (h6 : Lim R F α α0) (h7 : Lim R F f f0) (h8 : Lim R F g g0) (h9 : Lim R F sl sl0) (h10 : Lim R F β β0) (h11 : Lim R F P P0) :
    LLim R F L l := by
  have hD : DLim R F (fun i => (.null : ScalarDriver (T i))) (.null : ScalarDriver ℝ) := by
    constructor <;> first | exact fun _ => rfl | exact .lit hu _ | exact .neg (.lit hu _)
  have hA : ALim R F (fun i => (.null : AxialDriver (T i))) (.null : AxialDriver ℝ) := ⟨hD, hD, hD⟩
  have hz : VLim R F (fun i => (CVec.zero : CVec (T i))) (CVec.zero : CVec ℝ) := .zero hu
  have hT : TLim R F (fun i => (.zero : Tensor (T i))) (.zero : Tensor ℝ) := ⟨hz, hz, hz⟩
  have hone : Lim R F (fun i => (1 : T i)) (Scalar.lit 1 : ℝ) := .lit hu _
  have made : ∀ {T : Type} [Scalar T] {mag anis : CVec T} {Ms d S α f g sl β P : T} {N : Tensor T} {gs : Nat → T}
      {src : Nat → Axis → Nat → Nat → T} {l : Layer T}, Layer.mk' id mag anis Ms d S N α f g sl β P gs src = .ok l → l = {
        id := id
        temperatureDriver := .null, IECDriverTop := .null, IECDriverBottom := .null
        IECQuadDriverTop := .null, IECQuadDriverBottom := .null
        IDMIDriverTop := .null, IDMIDriverBottom := .null, HreservedDriver := .null
        currentDriver := .null, anisotropyDriver := .null, fieldLikeTorqueDriver := .null
        dampingLikeTorqueDriver := .null, externalFieldDriver := .null, HoeDriver := .null
        HdmiDriver := .null
        nonStochasticTempSet := false, temperatureSet := false, pinkNoiseSet := false
        alternativeSTTSet := false, referenceType := .NONE
        noiseParams := ⟨1, 0, 0, .all⟩, bfn := none
        includeSTT := false, includeSOT := false
        Ms := Ms, thickness := d
        cellVolume := S * d, cellSurface := S
        mag := mag, anis := anis, referenceLayer := .zero
        demagTensor := N, dipoleBottom := .zero, dipoleTop := .zero
        damping := α, dynamicSOT := true
        fieldLikeTorque := f, dampingLikeTorque := g
        slonczewski := sl, beta := β, kappa := 1, spinPolarisation := P
        cache := .init
        gauss := gs, gpos := 3
        alphaSrc := src, bfnCount := 0 } := by
    intro T _ mag anis Ms d S α f g sl β P N gs src l h
    unfold Layer.mk' at h
    split at h
    · cases h
    split at h
    · cases h
    cases h; rfl
  have e := made hl
  have E : L = _ := funext fun i => made (hL i)
  rw [e, E]
  constructor <;> first | assumption | exact fun _ => rfl

/-! ### Example: one step of a precessing spin -/

section
/-- a free layer in a field across its magnetisation -/
def spinner (T : Type) [Scalar T] : Layer T where
  id := "free"
  temperatureDriver := .null
  IECDriverTop := .null
  IECDriverBottom := .null
  IECQuadDriverTop := .null
  IECQuadDriverBottom := .null
  IDMIDriverTop := .null
  IDMIDriverBottom := .null
  HreservedDriver := .null
  currentDriver := .null
  anisotropyDriver := .null
  fieldLikeTorqueDriver := .null
  dampingLikeTorqueDriver := .null
  externalFieldDriver := .ofVec ⟨0, 0, 1⟩
  HoeDriver := .null
  HdmiDriver := .null
  nonStochasticTempSet := false
  temperatureSet := false
  pinkNoiseSet := false
  alternativeSTTSet := false
  referenceType := .NONE
  noiseParams := ⟨1, 0, 0, .all⟩
  bfn := none
  includeSTT := false
  includeSOT := false
  Ms := 1
  thickness := 1
  cellVolume := 1
  cellSurface := 1
  mag := ⟨1, 0, 0⟩
  anis := ⟨0, 0, 1⟩
  referenceLayer := .zero
  demagTensor := .zero
  dipoleBottom := .zero
  dipoleTop := .zero
  damping := 1
  dynamicSOT := true
  fieldLikeTorque := 0
  dampingLikeTorque := 0
  slonczewski := 0
  beta := 0
  kappa := 1
  spinPolarisation := 0
  cache := .init
  gauss := fun _ => 0
  gpos := 0
  alphaSrc := fun _ _ _ _ => 0
  bfnCount := 0

def spinJ (T : Type) [Scalar T] : Junction T :=
  { mrMode := .NONE, layers := [spinner T], Rp := 0, Rap := 0, Rx0 := [], Ry0 := [], AMR_X := [],
    AMR_Y := [], SMR_X := [], SMR_Y := [], AHE := [], log := [], logLength := 0, Rtag := "R" }

theorem spin_lim (hu : Tendsto u F (𝓝 0)) : JLim R F (fun i => spinJ (T i)) (spinJ ℝ) := by
  have hD : DLim R F (fun i => (.null : ScalarDriver (T i))) (.null : ScalarDriver ℝ) := by
    constructor <;> first | exact fun _ => rfl | exact .lit hu _ | exact .neg (.lit hu _)
  have hC : ∀ q : ℚ, DLim R F (fun i => (.constantDriver (Scalar.lit q) : ScalarDriver (T i))) (.constantDriver (Scalar.lit q) : ScalarDriver ℝ) := by
    intro q
    constructor <;> first | exact fun _ => rfl | exact .lit hu _ | exact .neg (.lit hu _)
  have hA : ALim R F (fun i => (.null : AxialDriver (T i))) (.null : AxialDriver ℝ) := ⟨hD, hD, hD⟩
  have hz : VLim R F (fun i => (CVec.zero : CVec (T i))) (CVec.zero : CVec ℝ) := .zero hu
  have hT : TLim R F (fun i => (.zero : Tensor (T i))) (.zero : Tensor ℝ) := ⟨hz, hz, hz⟩
  refine ⟨.of_forall fun _ => rfl, fun q l hl => ?_⟩
  cases q with
  | succ q => simp [spinJ] at hl
  | zero =>
    have : l = spinner ℝ := by simpa [spinJ] using hl.symm
    subst this
    refine ⟨fun i => spinner (T i), .of_forall fun _ => rfl, ?_⟩
    constructor <;> first | exact fun _ => rfl | exact hD | exact hA | exact hT | exact hz | exact .lit hu _ |
      exact ⟨hC 0, hC 0, hC 1⟩ | exact ⟨.lit hu _, .lit hu _, .lit hu _⟩

theorem spin_z (t : ℝ) (m : CVec ℝ) : ((spinner ℝ).llgV t m .zero .zero).z = 110440 * (m.x ^ 2 + m.y ^ 2) := by
  simp [Layer.llgV, Layer.llgDV, Layer.solveLLG, Layer.heffV, spinner, Layer.anisotropyField, Layer.iecV, Layer.idmiV, CVec.divU,
    AxialDriver.value, ScalarDriver.value, AxialDriver.null, AxialDriver.ofVec, ScalarDriver.constantDriver, ScalarDriver.null,
    Tensor.interaction, Tensor.zero, CVec.zero, CVec.cross, CVec.dot, Const.gyro, Layer.dipV]
  ring

theorem spin_calm (t : ℝ) : Calm (spinner ℝ) t := by
  constructor <;> simp [spinner, NoJumps, NoJump, AxialDriver.null, AxialDriver.ofVec, ScalarDriver.constantDriver, ScalarDriver.null]

theorem spin_quiet (T : Type) [Scalar T] (h : Scalar.eqb (0 : T) 0 = true) : ∀ l ∈ (spinJ T).layers, ¬ Noisy l := by
  intro l hl
  have : l = spinner T := by simpa [spinJ] using hl
  subst this
  rw [quiet_iff]
  exact ⟨rfl, h⟩

theorem spin_reachable (T : Type) [Scalar T] : Reachable (spinJ T) := ⟨spinJ T, [], .inl ⟨[spinner T], rfl⟩, rfl⟩

theorem rk4_rises (f : ℝ → CVec ℝ → CVec ℝ) (t dt : ℝ) (m : CVec ℝ) (hm : m.z = 0) (h : ∀ t m, 0 ≤ (f t m * dt).z) (h0 : 0 < (f t m * dt).z) :
    0 < (rk4U f t dt m).z := by
  unfold rk4U
  extract_lets k1 k2 k3 k4
  have q1 : 0 < k1.z := h0
  have q2 : 0 ≤ k2.z := h _ _
  have q3 : 0 ≤ k3.z := h _ _
  have q4 : 0 ≤ k4.z := h _ _
  clear_value k1 k2 k3 k4
  simp only [Layer.rk4Combine, CVec.add_z, CVec.mulr_z, hm, Scalar.ofSci_real_true]
  have : 0 < k1.z + k2.z * 2 + k3.z * 2 + k4.z := by linarith
  norm_num
  linarith

theorem normalize_rises {p : CVec ℝ} (h : 0 < p.z) : 0 < p.normalize.z := by
  have hl : 0 < p.length := by
    have : 0 < Real.sqrt (p.x ^ 2 + p.y ^ 2 + p.z ^ 2) := Real.sqrt_pos.2 (by positivity)
    simpa [CVec.length] using this
  unfold CVec.normalize
  rw [if_neg (by simpa using hl.ne')]
  exact div_pos h hl

theorem spin_moves (t dt : ℝ) (h : 0 < dt) : 0 < (rk4U (fun s m => (spinner ℝ).llgV s m .zero .zero) t dt (spinner ℝ).mag).z := by
  refine rk4_rises _ _ _ _ (by simp [spinner]) (fun t m => ?_) ?_
  · rw [CVec.mulr_z, spin_z]; positivity
  · rw [CVec.mulr_z, spin_z]; simp [spinner]; positivity

/-- The hypotheses of `C121_run` are met by one step of the spin in `Fl p`, `p → ∞`: the rounded runs succeed and their
logged magnetisations tend to those of the real run. -/
example : ∃ (K : ∀ p, Junction (Fl p)) (k : Junction ℝ), (spinJ ℝ).runSimulation 1.5 1 1.5 false .RK4 = .ok () k ∧
    (∀ᶠ p in atTop, (spinJ (Fl p)).runSimulation 1.5 1 1.5 false .RK4 = .ok () (K p)) ∧
    Tendsto (fun p => (Fl.rounding p).val (magOf (K p).layers 0).z) atTop (𝓝 (magOf k.layers 0).z) ∧ 0 < (magOf k.layers 0).z ∧
    ColumnTends Fl.rounding atTop (fun p => (K p).log.col "free_mz") (k.log.col "free_mz") ∧ (k.log.col "free_mz").length = 1 := by
  have hu : Tendsto (fun p : ℕ => ((1 / 2 : ℝ)) ^ p) atTop (𝓝 0) := tendsto_pow_atTop_nhds_zero_of_lt_one (by norm_num) (by norm_num)
  have hJ : JLim Fl.rounding atTop (fun p => spinJ (Fl p)) (spinJ ℝ) := spin_lim hu
  have hq : ∀ l ∈ (spinJ ℝ).layers, ¬ Noisy l := spin_quiet ℝ (by simp)
  have hQ : ∀ p, ∀ l ∈ (spinJ (Fl p)).layers, ¬ Noisy l := fun p => spin_quiet (Fl p) (by
    rw [(Fl.rounding p).eqb]; simp)
  have hD : Lim Fl.rounding atTop (fun p => (1.5 : Fl p)) (Scalar.lit (OfScientific.ofScientific 15 true 1) : ℝ) := .lit hu _
  have hδ : Lim Fl.rounding atTop (fun p => (1 : Fl p)) (Scalar.lit 1 : ℝ) := .lit hu _
  have e15 : (Scalar.lit (OfScientific.ofScientific 15 true 1) : ℝ) = 1.5 := by norm_num [Scalar.lit_real]
  have e1 : (Scalar.lit 1 : ℝ) = 1 := by simp
  rw [e15] at hD
  rw [e1] at hδ
  have hfl : ⌊(1.5 : ℝ) / 1⌋₊ = 1 := by rw [Nat.floor_eq_iff (by norm_num)]; norm_num
  obtain ⟨c1, c2⟩ := C121_counts hu hD hδ one_ne_zero (fun n h => by
    have h2 : (3 : ℝ) = 2 * n := by linarith
    have : (3 : ℕ) = 2 * n := by exact_mod_cast h2
    omega) (by norm_num) (by norm_num)
  rw [hfl] at c1 c2
  have hg : ∀ l ∈ (spinJ ℝ).layers, l.Ms * l.thickness ≠ 0 := by simp [spinJ, spinner]
  obtain ⟨k, hk⟩ := C27_completes_any (T := ℝ) (fun _ => by simp) (spinJ ℝ) (spin_reachable ℝ) (by simpa [Layer.Guard] using hg) hq 1.5 1 1.5 false .RK4
    (by norm_num) c1 c1 one_ne_zero
  have hK := C121_completes hu hJ (fun p => spin_reachable (Fl p)) hg hQ hδ hD (by norm_num) c2 c2 one_ne_zero false .RK4
  have hex : ∀ p, ∃ K, (∃ K, (spinJ (Fl p)).runSimulation 1.5 1 1.5 false .RK4 = .ok () K) →
      (spinJ (Fl p)).runSimulation 1.5 1 1.5 false .RK4 = .ok () K := fun p => by
    by_cases h : ∃ K, (spinJ (Fl p)).runSimulation 1.5 1 1.5 false .RK4 = .ok () K
    · obtain ⟨K, hK⟩ := h; exact ⟨K, fun _ => hK⟩
    · exact ⟨spinJ (Fl p), fun h' => absurd h' h⟩
  choose K hK' using hex
  have hKe := hK.mono fun p h => hK' p h
  obtain ⟨ks, hks⟩ := runStep_real_ok (spinJ ℝ) (by simp [spinJ]) (by simpa [Layer.Guard] using hg) hq .single
    (Scalar.lit ((0 : ℕ) : ℚ) * 1 : ℝ) 1
  obtain ⟨n1, n2⟩ := quiet_step (fun _ => rfl) hq hks
  obtain ⟨-, c, hc⟩ := n2 0 (spinner ℝ) rfl
  have hst : states .single 1 (spinJ ℝ) 1 = ks.layers := by
    unfold states steps
    rw [hks]; rfl
  have hks1 : ks.layers = [((spinner ℝ).setCache c).setMag (stepU .single (spinJ ℝ).layers (Scalar.lit ((0 : ℕ) : ℚ) * 1) 1 0 (spinner ℝ)).normalize] := by
    obtain ⟨l0, hl0⟩ := List.length_eq_one_iff.1 (n1.trans rfl)
    rw [hl0] at hc ⊢
    simp only [List.getElem?_cons_zero, Option.some.injEq] at hc
    rw [hc]
  have hz : 0 < (stepU .single (spinJ ℝ).layers (Scalar.lit ((0 : ℕ) : ℚ) * 1) 1 0 (spinner ℝ)).normalize.z :=
    normalize_rises (spin_moves _ 1 one_pos)
  have hr : (Runner.single) = pickRunner (spinJ ℝ).layers.length .RK4 := rfl
  have main := C121_run (R := Fl.rounding) hu hJ (fun p => spin_reachable (Fl p)) (fun p => by simp [DistinctIds, spinJ])
    (spin_reachable ℝ) (by simp [DistinctIds, spinJ]) hQ hq (fun key => ⟨.of_forall fun _ => rfl, fun p hp => by simp [spinJ, Log.col] at hp⟩)
    hδ one_pos c1 c1 c2 c2 hKe hk hr
    (fun m _ q l hl => C121_smooth (fun l hl => by
      have : l = spinner ℝ := by simpa [spinJ] using hl
      subst this
      exact ⟨rfl, spin_calm⟩) .single 1 m q l hl)
    (fun m hm l hl h => by
      obtain rfl : m = 0 := by omega
      rw [hst, hks1] at hl
      simp only [List.mem_singleton] at hl
      rw [hl] at h
      have := congrArg CVec.z h
      exact absurd this hz.ne')
  obtain ⟨N', W', r', m', j', e1', e2', e3', -, hres, hlay, -, -, hcols⟩ := C27_run (spin_reachable ℝ) (by simp [DistinctIds, spinJ]) hk
  rw [c1] at e1'; cases e1'
  rw [c1] at e2'; cases e2'
  rw [solver_quiet _ hq] at e3'
  simp only [Out.ok, Out.mk.injEq, Except.ok.injEq, Prod.mk.injEq] at e3'
  obtain ⟨⟨e3', -⟩, e4'⟩ := e3'
  rw [← hr] at e3'
  subst e3'; subst e4'
  refine ⟨K, k, hk, hKe, (main.1 0).2.2, ?_, main.2.2 (spinner ℝ) (by simp [spinJ]) "_mz" (by simp), ?_⟩
  · have : k.layers = ks.layers := by rw [hlay]; exact hst
    rw [this, hks1]
    exact hz
  · have := (hcols 0 (spinner ℝ) rfl).2.2
    have e : k.log.col "free_mz" = _ := this
    rw [e]
    simp [spinJ, Log.col, sampleSteps]

end
end Junction
