import Verif.Props.Continuity
import Mathlib.Analysis.Calculus.LineDeriv.Basic

set_option linter.unusedSectionVars false
set_option linter.unusedSimpArgs false

/-!
# C146: runs depend smoothly on the start

Small deviations of the start grow linearly in their size, with a derivative; differences of two runs divided by the deviation, as in
computations of Lyapunov exponents and of susceptibilities, converge.
-/

open Filter Topology

namespace Spec
open Order

/-- The layers with the magnetisations `M`. -/
noncomputable def startsFrom (ls : List (Layer ℝ)) (M : Fin ls.length → V) : List (Layer ℝ) :=
  List.ofFn fun i : Fin ls.length => { ls[i] with
    mag := ofV (M i) }

/-- The layers have no thermal or coloured noise, different names, moments other than zero, no spin transfer torque, and their drivers
are smooth. -/
structure SmoothStack (ls : List (Layer ℝ)) : Prop where
  quiet : ∀ l ∈ ls, ¬ Noisy l
  ids : (ls.map Layer.id).Nodup
  moment : ∀ l ∈ ls, l.Ms * l.thickness ≠ 0
  stt : ∀ l ∈ ls, l.includeSTT = false
  drivers : ∀ l ∈ ls, SmoothDrivers l

/-- The magnetisation of layer `n`, as an element of Euclidean space. -/
noncomputable def stateOf (j : Junction ℝ) (n : Nat) : V := toV (magOf j.layers n)

end Spec

namespace Order
open Spec Junction

section
variable {E : Type*} [NormedAddCommGroup E] [NormedSpace ℝ E]

theorem rkSlope_contDiff {F : E → E} (hF : ContDiff ℝ 4 F) (P : E →L[ℝ] E) (h : ℝ) : ContDiff ℝ 4 fun z => rkSlope F P z h := by
  have stage : ∀ (k : E → E) (c : ℝ), ContDiff ℝ 4 k → ContDiff ℝ 4 fun z => F (z + c • P (k z)) := fun k c hk =>
    hF.comp (contDiff_id.add (contDiff_const.smul (P.contDiff.comp hk)))
  have s1 : ContDiff ℝ 4 fun z => slope1 F z h := hF
  have s2 : ContDiff ℝ 4 fun z => slope2 F P z h := stage _ _ s1
  have s3 : ContDiff ℝ 4 fun z => slope3 F P z h := stage _ _ s2
  have s4 : ContDiff ℝ 4 fun z => slope4 F P z h := stage _ _ s3
  exact contDiff_const.smul (((s1.add (contDiff_const.smul s2)).add (contDiff_const.smul s3)).add s4)

end

variable {n : Nat} {L : Fin n → Layer ℝ}

theorem scheme_contDiff (hF : ContDiff ℝ 4 (rhs L)) (r : Runner) (h : ℝ) : ContDiff ℝ 4 fun z => schemeSlope r L z h := by
  have hfr : ContDiff ℝ 4 fun z => frozenSlope L z h := by
    refine contDiff_const.prodMk (contDiff_pi.2 fun i => ?_)
    exact (contDiff_pi.1 (contDiff_snd.comp (rkSlope_contDiff hF (keep i) h))) i
  cases r with
  | heun => exact (hF.add (hF.comp (contDiff_id.add (hF.const_smul (1 * h))))).const_smul (1 / 2 : ℝ)
  | eulerHeun => exact hF
  | single => exact hfr
  | multi => exact hfr

theorem renormalise_smooth {z : X n} (h : ∀ i, z.2 i ≠ 0) : ContDiffAt ℝ 4 (renormalise (n := n)) z := by
  refine contDiffAt_fst.prodMk (contDiffAt_pi.2 fun i => ?_)
  have hf : ContDiffAt ℝ 4 (fun w : X n => w.2 i) z := contDiffAt_pi.1 contDiffAt_snd i
  have h1 : ContDiffAt ℝ 4 (fun w : X n => ‖w.2 i‖⁻¹ • w.2 i) z := ((hf.norm ℝ (h i)).inv (norm_ne_zero_iff.2 (h i))).smul hf
  refine h1.congr_of_eventuallyEq ?_
  filter_upwards [hf.continuousAt.eventually_ne (h i)] with w hw
  exact toV_normalize hw

theorem normalized_zero : (ofV (0 : V)).normalize = ⟨0, 0, 0⟩ := by
  by_contra h
  exact normalize_ne h (by simp [ofV, CVec.length_eq, CVec.normSq])

theorem iterate_smooth (hF : ContDiff ℝ 4 (rhs L)) (r : Runner) (h : ℝ) (M : Fin n → V) (N : ℕ)
    (hne : ∀ k < N, ∀ i, (iterate r L h M (k + 1)).2 i ≠ 0) : ContDiffAt ℝ 4 (fun A => iterate r L h A N) M := by
  induction N with
  | zero => exact contDiffAt_const.prodMk contDiffAt_id
  | succ N ih =>
    have h1 := ih fun k hk => hne k (by omega)
    have h2 : ContDiffAt ℝ 4 (fun A => iterate r L h A N + h • schemeSlope r L (iterate r L h A N) h) M :=
      h1.add (((scheme_contDiff hF r h).contDiffAt.comp M h1).const_smul h)
    refine ContDiffAt.comp M (g := renormalise (n := n)) (renormalise_smooth fun i e => hne N (by omega) i ?_) h2
    show toV (ofV ((iterate r L h M N + h • schemeSlope r L (iterate r L h M N) h).2 i)).normalize = 0
    rw [e, normalized_zero]
    exact V.ext (by simp [toV]) (by simp [toV]) (by simp [toV])

end Order

namespace Junction
open Spec Layer Order

section
variable {ls : List (Layer ℝ)} (h : SmoothStack ls)
include h

theorem stack_quiet (i : Fin ls.length) : Quiet ls[i] := by
  have hm : ls[i] ∈ ls := List.getElem_mem i.2
  have := (quiet_iff ls[i]).1 (h.quiet _ hm)
  refine ⟨?_, this.1, by simpa using this.2⟩
  have := h.moment _ hm
  unfold Layer.Guard
  simpa using this

theorem stack_rhs : ContDiff ℝ 4 (rhs fun i : Fin ls.length => ls[i]) := by
  refine contDiff_iff_contDiffAt.2 fun z => rhs_smooth _ z (fun i => C111_drivers _ (h.drivers _ (List.getElem_mem i.2)) _) fun i e => ?_
  have := h.stt ls[i] (List.getElem_mem i.2)
  rw [this] at e
  cases e

omit h in
theorem mem_startsFrom {M : Fin ls.length → V} {l : Layer ℝ} (hl : l ∈ startsFrom ls M) : ∃ i : Fin ls.length, l = { ls[i] with
    mag := ofV (M i) } := by
  obtain ⟨i, e⟩ := (List.mem_ofFn' _ _).1 hl
  exact ⟨i, e.symm⟩

theorem stack_start (M : Fin ls.length → V) : SmoothStack (startsFrom ls M) := by
  have ids : (startsFrom ls M).map Layer.id = ls.map Layer.id := by
    apply List.ext_getElem <;> simp [startsFrom]
  refine ⟨fun l hl => ?_, by rw [ids]; exact h.ids, fun l hl => ?_, fun l hl => ?_, fun l hl => ?_⟩
  · obtain ⟨i, rfl⟩ := mem_startsFrom hl; exact h.quiet ls[i] (List.getElem_mem i.2)
  · obtain ⟨i, rfl⟩ := mem_startsFrom hl; exact h.moment ls[i] (List.getElem_mem i.2)
  · obtain ⟨i, rfl⟩ := mem_startsFrom hl; exact h.stt ls[i] (List.getElem_mem i.2)
  · obtain ⟨i, rfl⟩ := mem_startsFrom hl
    obtain ⟨⟩ := h.drivers ls[i] (List.getElem_mem i.2)
    constructor <;> assumption

/-- helper: the states of a run are the iterates of the scheme -/
theorem states_iterate {J : (Fin ls.length → V) → Junction ℝ} (hJ : ∀ M, Junction.plain (startsFrom ls M) = .ok (J M)) {r : Runner}
    (hr : r = .single → ls.length = 1) (dt : ℝ) (M : Fin ls.length → V) (k : ℕ) :
    Carries (fun i : Fin ls.length => ls[i]) (iterate r (fun i : Fin ls.length => ls[i]) dt M k).2 (states r dt (J M) k) := by
  have hc : Carries (fun i : Fin ls.length => ls[i]) (iterate r (fun i : Fin ls.length => ls[i]) dt M 0).2 (J M).layers := by
    rw [(plain_eq (hJ M)).1]
    refine ⟨by simp [startsFrom], fun i => ⟨ls[i].cache, ?_⟩⟩
    simp only [startsFrom, List.getElem?_ofFn, i.2, dite_true]
    rfl
  obtain ⟨j', e, c⟩ := evolve_iterate r _ (stack_quiet h) hr dt M k 0 (J M) hc
  unfold states
  rw [steps_eq_evolve, e]
  simpa using c

/-- C146. The run of every start succeeds. At a start whose run does not pass a zero magnetisation, the final magnetisations are four
times continuously differentiable functions of the start. -/
theorem C146_run {J : (Fin ls.length → V) → Junction ℝ} (hJ : ∀ M, Junction.plain (startsFrom ls M) = .ok (J M)) {total dt wf : ℝ}
    (hw : dt ≤ wf) {N W : Nat} (hN : Scalar.toUInt (total / dt) = some N) (hW : Scalar.toUInt (wf / dt) = some W) (hW0 : W ≠ 0)
    (en : Bool) (mode : SolverMode) : ∃ K : (Fin ls.length → V) → Junction ℝ,
      (∀ M, (J M).runSimulation total dt wf en mode = .ok () (K M)) ∧
      ∀ M, (∀ m < N, ∀ l ∈ states (pickRunner ls.length mode) dt (J M) (m + 1), l.mag ≠ ⟨0, 0, 0⟩) →
        ∀ n, ContDiffAt ℝ 4 (fun A => stateOf (K A) n) M := by
  have hl : ∀ M, (J M).layers = startsFrom ls M := fun M => (plain_eq (hJ M)).1
  have hlen : ∀ M, (J M).layers.length = ls.length := fun M => by rw [hl]; simp [startsFrom]
  have hR : ∀ M, Reachable (J M) := fun M => ⟨J M, [], .inl ⟨_, hJ M⟩, rfl⟩
  have hok : ∀ M, ∃ K, (J M).runSimulation total dt wf en mode = .ok () K := fun M =>
    C27_completes_any (fun x => by simp) (J M) (hR M) (fun l a => by
      have := (stack_start h M).moment l (hl M ▸ a)
      unfold Layer.Guard
      simpa using this) (by rw [hl]; exact (stack_start h M).quiet) _ _ _ en mode (by simpa using hw) hN hW hW0
  choose K hK using hok
  refine ⟨K, hK, fun M hne n => ?_⟩
  set r := pickRunner ls.length mode with hr
  have hrs : r = .single → ls.length = 1 := pickRunner_single
  have hK2 : ∀ A, (K A).layers = states r dt (J A) N := by
    intro A
    obtain ⟨N', W', r', m', j', e1, e2, e3, -, -, hlay, -⟩ := C27_run (hR A) (by unfold DistinctIds; rw [hl]; exact (stack_start h A).ids)
      (hK A)
    rw [hN] at e1; cases e1
    rw [solver_quiet (J A) (by rw [hl]; exact (stack_start h A).quiet)] at e3
    simp only [Out.ok, Out.mk.injEq, Except.ok.injEq, Prod.mk.injEq] at e3
    obtain ⟨⟨e3, -⟩, e4⟩ := e3
    rw [hlen, ← hr] at e3
    subst e3; subst e4
    exact hlay
  have hval : ∀ A k (i : Fin ls.length), toV (magOf (states r dt (J A) k) i) = (iterate r (fun i : Fin ls.length => ls[i]) dt A k).2 i := by
    intro A k i
    obtain ⟨c, hc⟩ := (states_iterate h hJ hrs dt A k).2 i
    unfold magOf
    rw [hc]
    exact toV_ofV _
  by_cases hn : n < ls.length
  · have hs := iterate_smooth (stack_rhs h) r dt M N fun k hk i e => by
      have hv := hval M (k + 1) i
      obtain ⟨c, hc⟩ := (states_iterate h hJ hrs dt M (k + 1)).2 i
      refine hne k hk _ (List.mem_of_getElem? hc) ?_
      show ofV _ = _
      rw [e]
      simp [ofV]
    have h2 : ContDiffAt ℝ 4 (fun A => (iterate r (fun i : Fin ls.length => ls[i]) dt A N).2 ⟨n, hn⟩) M :=
      contDiffAt_pi.1 (contDiffAt_snd.comp M hs) _
    have e : (fun A => stateOf (K A) n) = fun A => (iterate r (fun i : Fin ls.length => ls[i]) dt A N).2 ⟨n, hn⟩ := by
      funext A
      rw [← hval A N ⟨n, hn⟩, stateOf, hK2]
    rw [e]
    exact h2
  · have e : (fun A => stateOf (K A) n) = fun _ => toV (magOf ([] : List (Layer ℝ)) 0) := by
      funext A
      have : (K A).layers.length ≤ n := by
        rw [hK2, (states_iterate h hJ hrs dt A N).1]
        exact not_lt.1 hn
      rw [stateOf, magOf, List.getElem?_eq_none this]
      rfl
    rw [e]
    exact contDiffAt_const

/-- C146: with short steps from unit magnetisations nothing else is needed, and the differences of runs divided by the deviations of their
starts tend to a linear function of the direction of the deviation. -/
theorem C146_response {J : (Fin ls.length → V) → Junction ℝ} (hJ : ∀ M, Junction.plain (startsFrom ls M) = .ok (J M)) {M : Fin ls.length → V}
    (hM : ∀ i, ‖M i‖ = 1) {T : ℝ} (hT : 0 ≤ T) (mode : SolverMode) : ∃ r : ℝ, 0 < r ∧ ∀ (total dt wf : ℝ), 0 < dt → dt ≤ r → dt ≤ wf →
      ∀ {N W : Nat}, Scalar.toUInt (total / dt) = some N → Scalar.toUInt (wf / dt) = some W → W ≠ 0 → N * dt ≤ T → ∀ en : Bool,
      ∃ K : (Fin ls.length → V) → Junction ℝ, (∀ A, (J A).runSimulation total dt wf en mode = .ok () (K A)) ∧
        ∀ n, ContDiffAt ℝ 4 (fun A => stateOf (K A) n) M ∧ ∃ D : (Fin ls.length → V) →L[ℝ] V, ∀ u,
          Tendsto (fun ε : ℝ => ε⁻¹ • (stateOf (K (M + ε • u)) n - stateOf (K M) n)) (𝓝[≠] 0) (𝓝 (D u)) := by
  have hl : (J M).layers = startsFrom ls M := (plain_eq (hJ M)).1
  have hlen : (J M).layers.length = ls.length := by rw [hl]; simp [startsFrom]
  have ht := stack_start h M
  obtain ⟨r, hr, hne⟩ := C145_short (j := J M) (fun l a => by
    obtain ⟨i, rfl⟩ := mem_startsFrom (hl ▸ a)
    show (ofV (M i)).length = 1
    rw [← norm_toV, toV_ofV]; exact hM i) (by rw [hl]; exact ht.moment) (by rw [hl]; exact ht.quiet)
    (by rw [hl]; exact ht.drivers) (fun l a m b c _ _ _ e => by rw [ht.stt l (hl ▸ a)] at e; cases e) hT mode
  refine ⟨r, hr, fun total dt wf h0 h1 hw N W hN hW hW0 hNT en => ?_⟩
  obtain ⟨K, hK, hs⟩ := C146_run h hJ hw hN hW hW0 en mode
  refine ⟨K, hK, fun n => ?_⟩
  have hd := hs M (fun m hm => by
    rw [← hlen]
    refine hne (m + 1) dt h0 h1 (le_trans ?_ hNT)
    have : ((m + 1 : ℕ) : ℝ) ≤ N := by exact_mod_cast hm
    exact mul_le_mul_of_nonneg_right this h0.le) n
  refine ⟨hd, _, fun u => ((hd.differentiableAt (by norm_num)).hasFDerivAt.hasLineDerivAt u).tendsto_slope_zero⟩

end

/-- One spin in a field meets the hypotheses. -/
example : ∃ J : (Fin [spinner ℝ].length → V) → Junction ℝ, SmoothStack [spinner ℝ] ∧ (∀ M, Junction.plain (startsFrom [spinner ℝ] M) = .ok (J M)) ∧
    ∃ M : Fin [spinner ℝ].length → V, ∀ i, ‖M i‖ = 1 := by
  have hd : SmoothDrivers (spinner ℝ) := by
    constructor <;> first | exact .inl rfl | exact ⟨.inl rfl, .inl rfl, .inl rfl⟩
  have hp : ∀ M, ∃ j, Junction.plain (startsFrom [spinner ℝ] M) = .ok j := fun M =>
    ⟨_, by rw [Junction.plain, if_neg (by simp [startsFrom])]⟩
  choose J hJ using hp
  refine ⟨J, ⟨spin_quiet ℝ (by simp), by simp, by simp [spinner], by simp [spinner], by simpa using hd⟩, hJ,
    fun _ => toV ⟨1, 0, 0⟩, fun i => ?_⟩
  rw [norm_toV]; simp [CVec.length_eq, CVec.normSq]

end Junction
