import Verif.Props.StackAlone
import Verif.Props.Runs

/-! # C34: when stack runs complete -/

set_option linter.unusedSectionVars false

namespace Stack
open Spec Junction Layer

/-- helper: the reference of the layer called `id` -/
def refOf (id : String) (j : Junction ℝ) : Option (CVec ℝ) := (layerNamed id j).map Layer.referenceLayer

/-- helper: all layers have a denominator and no noise -/
def Calm (j : Junction ℝ) : Prop := ∀ l ∈ j.layers, l.Guard ∧ ¬ Noisy l

/-- helper -/
def Firm (j j' : Junction ℝ) : Prop := Rigid j j' ∧ (Calm j → Calm j')

/-- helper -/
theorem calm_same {ls ls' : List (Layer ℝ)} (h : List.Forall₂ Same ls ls') (hc : ∀ l ∈ ls, l.Guard ∧ ¬ Noisy l) :
    ∀ l ∈ ls', l.Guard ∧ ¬ Noisy l :=
  sames_all (fun _ _ hs hl => ⟨(Same_guard hs).2 hl.1, (not_congr (Same_noisy hs)).2 hl.2⟩) h hc

/-- helper -/
theorem kept_firm : Kept Firm where
  refl j := ⟨kept_rigid.refl j, id⟩
  trans _ _ _ h h' := ⟨kept_rigid.trans _ _ _ h.1 h'.1, fun hc => h'.2 (h.2 hc)⟩
  current j d := ⟨kept_rigid.current j d, fun hc l hl => by
    simp only [carry, withLayers_layers, List.mem_map] at hl
    obtain ⟨x, hx, rfl⟩ := hl
    exact hc x hx⟩
  step j r t dt := ⟨kept_rigid.step j r t dt, fun hc => calm_same (runStep_same j r t dt) hc⟩
  solver j m n := ⟨kept_rigid.solver j m n, fun hc => calm_same (getSolver_same j m n) hc⟩

/-- helper -/
theorem firm_log (j : Junction ℝ) (t : ℝ) : Firm j (j.logLayerParams t false).st :=
  ⟨kept_log_rigid j t, fun hc => by unfold Calm; rw [log_layers]; exact hc⟩

/-- helper -/
theorem refOf_rigid {j j' : Junction ℝ} (h : Rigid j j') (id : String) : refOf id j' = refOf id j := by
  have key : ∀ j : Junction ℝ, refOf id j =
      (((j.layers.map (fun l => (l.id, l.referenceLayer))).filter (fun p => decide (p.1 = id))).head?).map Prod.snd := by
    intro j
    unfold refOf layerNamed
    generalize j.layers = ls
    induction ls with
    | nil => rfl
    | cons l ls ih =>
      rw [List.map_cons, List.filter_cons, List.filter_cons]
      by_cases hd : l.id = id
      · simp [hd]
      · simpa [hd] using ih
  rw [key, key, h.2]

/-- helper -/
theorem refOf_mag {j : Junction ℝ} {id : String} (h : (refOf id j).isSome) : ∃ m, j.getLayerMagnetisation id = .ok m := by
  unfold refOf at h
  cases hl : layerNamed id j with
  | none => rw [hl] at h; simp at h
  | some l => exact ⟨l.mag, (getMag_iff j id l.mag).2 (by rw [hl]; rfl)⟩

/-- helper: what a step needs -/
structure Ready (s : Stack ℝ) (two : Bool) : Prop where
  classic : ∀ j ∈ s.junctions, j.mrMode = .CLASSIC
  layers : ∀ j ∈ s.junctions, j.layers.length = 1 ∨ j.layers.length = 2
  calm : ∀ j ∈ s.junctions, Calm j
  top : ∀ j ∈ s.junctions, (refOf s.topId j).isSome
  bottom : two = true → ∀ j ∈ s.junctions, (refOf s.bottomId j).isSome
  reference : two = false → s.junctions ≠ [] ∧ ∃ p : CVec ℝ, p ≠ CVec.zero ∧ ∀ j ∈ s.junctions, refOf s.topId j = some p
  direct : s.delayed = false → two = true
  driver : ∀ e, ∃ d, s.currentDriver.mul e = .ok d
  coupling : ∀ k, k + 1 < s.junctions.length → ∃ c, s.getCoupling k = .ok c

/-- helper -/
theorem Ready.mono {s s' : Stack ℝ} {two : Bool} (h : Ready s two) (hf : Frame s s')
    (hj : List.Forall₂ Firm s.junctions s'.junctions) : Ready s' two where
  classic := forall_of_forall₂ (fun _ _ hab ha => hab.1.1.1.symm.trans ha) hj h.classic
  layers := forall_of_forall₂ (fun _ _ hab ha => by rw [hab.1.len]; exact ha) hj h.layers
  calm := forall_of_forall₂ (fun _ _ hab ha => hab.2 ha) hj h.calm
  top := by rw [hf.2.1]; exact forall_of_forall₂ (fun _ _ hab ha => by rw [refOf_rigid hab.1]; exact ha) hj h.top
  bottom ht := by rw [hf.2.2.1]; exact forall_of_forall₂ (fun _ _ hab ha => by rw [refOf_rigid hab.1]; exact ha) hj (h.bottom ht)
  reference ht := by
    obtain ⟨hn, p, h1, h2⟩ := h.reference ht
    refine ⟨fun h0 => hn (List.length_eq_zero_iff.1 (by rw [hj.length_eq, h0]; rfl)), p, h1, ?_⟩
    rw [hf.2.1]
    exact forall_of_forall₂ (fun _ _ hab ha => by rw [refOf_rigid hab.1]; exact ha) hj h2
  direct hd := h.direct (hf.2.2.2.2.2.1 ▸ hd)
  driver := by rw [hf.2.2.2.2.2.2]; exact h.driver
  coupling k hk := by
    obtain ⟨c, hc⟩ := h.coupling k (by rw [hj.length_eq]; exact hk)
    exact ⟨c, by unfold getCoupling at hc ⊢; rw [hf.2.2.2.2.1]; exact hc⟩

/-- helper -/
theorem classic_resistance {j : Junction ℝ} (hc : j.mrMode = .CLASSIC) (hl : j.layers.length = 1 ∨ j.layers.length = 2) :
    ∃ R rest, j.getMagnetoresistance = .ok (R :: rest) := by
  unfold getMagnetoresistance
  rw [hc]
  rcases hl with hl | hl
  · obtain ⟨a, ha⟩ := List.length_eq_one_iff.1 hl
    rw [ha]; exact ⟨_, _, rfl⟩
  · obtain ⟨a, b, ha⟩ := List.length_eq_two.1 hl
    rw [ha]; exact ⟨_, _, rfl⟩

/-- helper -/
theorem stepJunction_completes {s : Stack ℝ} (hd : ∀ e, ∃ d, s.currentDriver.mul e = .ok d) (r : Runner) (t dt : ℝ) (i : Nat)
    (eff : ℝ) (j : Junction ℝ) (hc : j.mrMode = .CLASSIC) (hl : j.layers.length = 1 ∨ j.layers.length = 2) (hq : Calm j) :
    ∃ v j', s.stepJunction r t dt i eff j = .ok v j' := by
  obtain ⟨d, hd⟩ := hd eff
  have hne : j.layers ≠ [] := by intro h0; rw [h0] at hl; simp at hl
  unfold stepJunction
  rw [hd]
  dsimp only
  rw [setCurrent_all _ j hne, Out.bind_ok]
  have hq' := (kept_firm.current j (d.phaseShift (s.getPhaseOffset i))).2 hq
  have hr := (kept_firm.step (j.carry (d.phaseShift (s.getPhaseOffset i))) r t dt).1
  have hr0 := (kept_firm.current j (d.phaseShift (s.getPhaseOffset i))).1
  obtain ⟨k, hk⟩ := runStep_real_ok (j.carry (d.phaseShift (s.getPhaseOffset i)))
    (fun h0 => hne (List.length_eq_zero_iff.1 (by rw [← carry_len, h0]; rfl))) (fun l hl => (hq' l hl).1) (fun l hl => (hq' l hl).2) r t dt
  rw [hk] at hr ⊢
  rw [Out.bind_ok]
  change Rigid _ k at hr
  obtain ⟨R, rest, hR⟩ := classic_resistance (j := k) ((hr.1.1.symm.trans hr0.1.1.symm).trans hc) (by rw [hr.len, hr0.len]; exact hl)
  rw [hR]
  exact ⟨_, _, rfl⟩

/-- helper -/
theorem effective_completes {s : Stack ℝ} {k : Nat} (hc : ∃ c, s.getCoupling k = .ok c) (a b p : CVec ℝ) :
    ∃ x, s.getEffectiveCouplingStrength k a b p = .ok x := by
  obtain ⟨c, hc⟩ := hc
  unfold getEffectiveCouplingStrength
  rw [hc]
  dsimp only
  split <;> exact ⟨_, rfl⟩

/-- helper -/
theorem junctionLoop_completes {s : Stack ℝ} {two : Bool} (h : Ready s two) (r : Runner) (t dt : ℝ) (fr : List (CVec ℝ × CVec ℝ))
    (hfr : fr.length = s.junctions.length) (js : List (Junction ℝ)) :
    ∀ (i : Nat) (prev : Option (Junction ℝ)) (eff : ℝ), i + js.length = s.junctions.length → (prev.isSome → 0 < i) →
      (∀ j ∈ js, j ∈ s.junctions) →
      (∀ p, prev = some p → (refOf s.topId p).isSome ∧ (two = true → (refOf s.bottomId p).isSome)) →
      ∃ vs js', s.junctionLoop r t dt fr i prev eff js = .ok vs js' := by
  induction js with
  | nil => intros; exact ⟨_, _, rfl⟩
  | cons j js ih =>
    intro i prev eff hi hp hm hprev
    have hj := hm j (by simp)
    simp only [List.length_cons] at hi
    unfold junctionLoop
    have hf : ∃ f, s.couplingFactor fr i prev j = .ok f := by
      unfold couplingFactor
      cases prev with
      | none => exact ⟨_, rfl⟩
      | some p =>
        have hi0 := hp rfl
        have hcoup := h.coupling (i - 1) (by omega)
        dsimp only
        split
        · rw [List.getElem?_eq_getElem (by omega : i - 1 < fr.length), List.getElem?_eq_getElem (by omega : i < fr.length)]
          dsimp only
          obtain ⟨x, hx⟩ := effective_completes hcoup fr[i - 1].1 fr[i].1 fr[i - 1].2
          rw [hx]; exact ⟨_, rfl⟩
        · rename_i hd
          have htwo := h.direct (by simpa using hd)
          obtain ⟨a, ha⟩ := refOf_mag (hprev p rfl).1
          obtain ⟨b, hb⟩ := refOf_mag (h.top j hj)
          obtain ⟨c, hc⟩ := refOf_mag ((hprev p rfl).2 htwo)
          rw [ha, hb, hc]
          dsimp only
          obtain ⟨x, hx⟩ := effective_completes hcoup a b c
          rw [hx]; exact ⟨_, rfl⟩
    obtain ⟨f, hf⟩ := hf
    rw [hf]
    dsimp only
    generalize (if prev.isSome = true then eff * f else eff) = e0
    obtain ⟨v, j', hs⟩ := stepJunction_completes h.driver r t dt i e0 j (h.classic j hj) (h.layers j hj) (h.calm j hj)
    have hk := (stepJunction_kept kept_firm s r t dt i e0 j).1
    rw [hs] at hk ⊢
    change Rigid j j' at hk
    obtain ⟨vs, js', hl⟩ := ih (i + 1) (some j') e0 (by omega) (fun _ => by omega) (fun x hx => hm x (List.mem_cons_of_mem _ hx))
      (fun p hp => by
        cases hp
        exact ⟨by rw [refOf_rigid hk]; exact h.top j hj, fun ht => by rw [refOf_rigid hk]; exact h.bottom ht j hj⟩)
    dsimp only [Out.ok]
    rw [hl]
    exact ⟨_, _, rfl⟩

/-- helper -/
theorem polarisation_completes {s : Stack ℝ} {p : CVec ℝ} (hp : p ≠ CVec.zero) (hn : s.junctions ≠ [])
    (h : ∀ j ∈ s.junctions, refOf s.topId j = some p) : ∃ q, s.getPolarisationVector = .ok q := by
  have get : ∀ j ∈ s.junctions, ∃ l, j.getLayer s.topId = .ok l ∧ l.referenceLayer = p := by
    intro j hj
    have := h j hj
    unfold refOf at this
    obtain ⟨l, h1, h2⟩ := Option.map_eq_some_iff.1 this
    exact ⟨l, (getLayer_iff j s.topId l).2 h1, h2⟩
  unfold getPolarisationVector
  split
  · rename_i h0; exact absurd h0 hn
  · rename_i j js hjs
    rw [hjs] at get
    obtain ⟨l, h1, h2⟩ := get j (by simp)
    rw [h1]
    dsimp only
    have hloop : ∀ js : List (Junction ℝ), (∀ j ∈ js, ∃ l, j.getLayer s.topId = .ok l ∧ l.referenceLayer = p) →
        polarisationLoop s.topId p js = .ok () := by
      intro js
      induction js with
      | nil => intro _; rfl
      | cons x xs ih =>
        intro hx
        obtain ⟨l, h1, h2⟩ := hx x (by simp)
        unfold polarisationLoop
        rw [h1]
        dsimp only
        rw [h2, if_neg (by simp [CVec.neqb])]
        exact ih fun y hy => hx y (List.mem_cons_of_mem _ hy)
    rw [h2, hloop js fun x hx => get x (List.mem_cons_of_mem _ hx)]
    dsimp only
    rw [if_neg]
    · exact ⟨_, rfl⟩
    · simp only [Scalar.eqb_real, decide_eq_true_eq, Scalar.ofNat_real, Nat.cast_zero]
      exact fun h0 => hp ((CVec.length_eq_zero p).1 h0)

/-- helper -/
theorem freeze_completes {s : Stack ℝ} {two : Bool} (h : Ready s two) : ∃ fr, s.freeze two = .ok fr ∧ fr.length = s.junctions.length := by
  have hpol : ∀ j ∈ s.junctions, ∃ p, (if two then j.getLayerMagnetisation s.bottomId else s.getPolarisationVector) = .ok p := by
    intro j hj
    cases two with
    | true => exact refOf_mag (h.bottom rfl j hj)
    | false =>
      obtain ⟨hn, p, h1, h2⟩ := h.reference rfl
      exact polarisation_completes h1 hn h2
  have : ∃ fr, s.freeze two = .ok fr := by
    have htop := h.top
    unfold freeze
    generalize s.junctions = js at hpol htop ⊢
    induction js with
    | nil => exact ⟨_, rfl⟩
    | cons j js ih =>
      obtain ⟨fr, hfr⟩ := ih (fun x hx => hpol x (List.mem_cons_of_mem _ hx)) (fun x hx => htop x (List.mem_cons_of_mem _ hx))
      obtain ⟨m, hm⟩ := refOf_mag (htop j (by simp))
      obtain ⟨p, hp⟩ := hpol j (by simp)
      rw [List.mapM_cons, hfr, hm]
      dsimp only
      rw [hp]
      exact ⟨_, rfl⟩
  obtain ⟨fr, hfr⟩ := this
  exact ⟨fr, hfr, (freeze_ok hfr).1⟩

/-- helper -/
theorem step_of {T : Type} [Scalar T] {s : Stack T} {r : Runner} {two : Bool} {t dt : T} {fr : List (CVec T × CVec T)}
    (h1 : s.freeze two = .ok fr) (h : ∀ e, ∃ vs js, s.junctionLoop r t dt fr 0 none e s.junctions = .ok vs js) :
    ∃ vs s', s.step r two t dt = .ok vs s' := by
  obtain ⟨vs, js, h3⟩ := h 1
  refine ⟨vs, s.withJunctions js, ?_⟩
  unfold step
  rw [h1]
  dsimp only
  rw [h3]; rfl

/-- helper -/
theorem step_completes {s : Stack ℝ} {two : Bool} (h : Ready s two) (r : Runner) (t dt : ℝ) :
    ∃ vs s', s.step r two t dt = .ok vs s' ∧ Ready s' two := by
  obtain ⟨fr, h1, h2⟩ := freeze_completes h
  obtain ⟨vs, s', hs⟩ := step_of (r := r) (t := t) (dt := dt) h1 fun e =>
    junctionLoop_completes h r t dt fr h2 s.junctions 0 none e (by simp) (by simp) (fun _ hj => hj) (by simp)
  obtain ⟨k1, -, k2⟩ := step_kept kept_firm s r two t dt
  rw [hs] at k1 k2
  exact ⟨vs, _, hs, h.mono k1 k2⟩

/-- helper -/
theorem logRow_completes {s : Stack ℝ} (hc : ∀ j ∈ s.junctions, j.mrMode = .CLASSIC) (t : ℝ) (vs : List (ℝ × ℝ)) :
    ∃ s', s.logRow t vs = .ok () s' := by
  unfold logRow
  dsimp only
  rw [show (s.logStackData t (s.calculateStackResistance (vs.map Prod.fst)) (vs.map Prod.snd)).junctions = s.junctions from rfl]
  obtain ⟨bs, as, h, -⟩ := Out.traverse_exists (fun _ j => j.logLayerParams t false) (fun _ _ _ _ => True) 0 s.junctions (fun k j hj => by
    have hm : j.MrOk := by intro hs; rw [hc j (List.mem_of_getElem? hj)] at hs; cases hs
    obtain ⟨x, hx⟩ := log_ok j t false hm
    exact ⟨(), x, hx.1, trivial⟩)
  rw [h]
  exact ⟨_, rfl⟩

/-- helper -/
theorem loop_completes (r : Runner) (two : Bool) (dt : ℝ) (we : Nat) (hw : we ≠ 0) (n i : Nat) (s : Stack ℝ) (h : Ready s two) :
    ∃ s', loop r two dt we i n s = .ok () s' := by
  induction n generalizing i s with
  | zero => exact ⟨s, rfl⟩
  | succ n ih =>
    unfold loop
    dsimp only
    obtain ⟨vs, s1, h1, h2⟩ := step_completes h r (Scalar.lit (i : ℚ) * dt) dt
    rw [h1, Out.bind_ok, if_neg hw]
    split
    · obtain ⟨s2, h3⟩ := logRow_completes h2.classic (Scalar.lit (i : ℚ) * dt) vs
      obtain ⟨k1, k2⟩ := logRow_kept kept_firm firm_log s1 (Scalar.lit (i : ℚ) * dt) vs
      rw [h3] at k1 k2 ⊢
      rw [Out.bind_ok]
      exact ih (i + 1) s2 (h2.mono k1 k2)
    · exact ih (i + 1) s1 h2

/-- helper -/
theorem cast_floor {q : ℝ} (h0 : 0 ≤ q) (h1 : q < 2 ^ 31) : castUnsigned q = some ⌊q⌋₊ := by
  unfold castUnsigned
  simp only [Scalar.toInt]
  rw [if_pos ⟨by linarith, by norm_num at h1; linarith⟩]
  simp only [Option.map_some, Option.some.injEq]
  unfold Scalar.truncR
  rw [if_pos h0]
  have : ⌊q⌋ < 2147483648 := Int.floor_lt.2 (by norm_num at h1 ⊢; exact h1)
  rw [Int.emod_eq_of_lt (Int.floor_nonneg.2 h0) (by omega)]
  rfl

/-- helper: direct coupling implies two layers everywhere -/
theorem reachable_direct {s : Stack ℝ} (h : StackReachable s) : s.delayed = false → TwoLayers s := by
  obtain ⟨kind, js, a, b, ph, s0, cs, hj, h0, rfl⟩ := h
  have hd := ((C34_constructor kind js a b ph).2.2.2 s0 h0).2.2.2.2.2.2.1
  have hv : s0.delayed = false → TwoLayers s0 := by rw [hd]; intro h; cases h
  clear hd h0
  induction cs generalizing s0 with
  | nil => exact hv
  | cons c cs ih =>
    refine ih _ ?_
    have hl : TwoLayers (c.exec s0).st ↔ TwoLayers s0 := by
      obtain ⟨h1, -⟩ := StackCall.params s0 c
      unfold TwoLayers
      generalize s0.junctions = x at h1
      generalize (c.exec s0).st.junctions = y at h1
      induction h1 with
      | nil => simp
      | cons hab _ ih => simp only [List.mem_cons, forall_eq_or_imp, ih, hab.2.2.2.2.2.2.2.2.2.2.2]
    rw [hl]
    have same : (c.exec s0).st.delayed = s0.delayed → (c.exec s0).st.delayed = false → TwoLayers s0 := fun e h => hv (e ▸ h)
    cases c with
    | delayed b =>
      intro hb
      obtain ⟨h1, h2, h3⟩ := C34_delayed s0 b
      by_cases hr : (s0.setDelayed b).res = .ok ()
      · have hst := h2 hr
        change (s0.setDelayed b).st.delayed = false at hb
        rw [hst] at hb
        rcases h1.1 hr with h | h
        · rw [h] at hb; cases hb
        · exact h
      · change (s0.setDelayed b).st.delayed = false at hb
        rw [h3 hr] at hb
        exact hv hb
    | coupling c => exact same rfl
    | couplings cs =>
      refine same ?_
      simp only [StackCall.exec, setCouplingStrengths]
      split <;> rfl
    | clearLogs => exact same rfl
    | run a b c => exact same (run_kept kept_params (fun j t => log_params j t false) s0 a b c).1.2.2.2.2.2.1
    | magnetisation i id m => exact same (onJunction_junctions (P := fun _ _ => True) s0 i _ (fun _ => trivial) (fun _ => trivial)).2.2.2.2.2.2.2.1
    | anisotropy i id m => exact same (onJunction_junctions (P := fun _ _ => True) s0 i _ (fun _ => trivial) (fun _ => trivial)).2.2.2.2.2.2.2.1
    | member i c => exact same (onJunction_junctions (P := fun _ _ => True) s0 i _ (fun _ => trivial) (fun _ => trivial)).2.2.2.2.2.2.2.1
    | oersted d => exact same (onAll_junctions (P := fun _ _ => True) s0 _ (fun _ => trivial) (fun _ => trivial)).2.2.2.2.2.2.2.1
    | externalField d => exact same (onAll_junctions (P := fun _ _ => True) s0 _ (fun _ => trivial) (fun _ => trivial)).2.2.2.2.2.2.2.1
    | current d => exact same (onAll_junctions (P := fun _ _ => True) { s0 with currentDriver := d } _ (fun _ => trivial) (fun _ => trivial)).2.2.2.2.2.2.2.1
    | resetCurrent =>
      exact same (onAll_junctions (P := fun _ _ => True) { s0 with currentDriver := .null } _ (fun _ => trivial) (fun _ => trivial)).2.2.2.2.2.2.2.1

/-- helper -/
theorem mul_completes (d : ScalarDriver ℝ) (hp : d.update = .pulse → d.period ≠ -1 ∧ d.cycle ≠ -1)
    (hs : d.update = .sine → d.frequency ≠ -1) (e : ℝ) : ∃ d', d.mul e = .ok d' := by
  unfold ScalarDriver.mul ScalarDriver.mk'
  dsimp only
  rw [if_neg, if_neg]
  · exact ⟨_, rfl⟩
  · rintro ⟨h, h'⟩
    simp at h'
    exact hs h (by simpa using h')
  · rintro ⟨h, h'⟩
    simp at h'
    exact h'.elim (fun x => (hp h).1 (by simpa using x)) (fun x => (hp h).2 (by simpa using x))

/-- helper -/
theorem solvers_completes (n : Nat) (js : List (Junction ℝ)) (h : ∀ j ∈ js, Calm j) :
    solvers n js = .ok (js.map fun j => (pickRunner j.layers.length .RK4, SolverMode.RK4)) js := by
  unfold solvers
  rw [Out.traverse_of_ok _ (fun _ j => (pickRunner j.layers.length .RK4, SolverMode.RK4)) (fun _ j => j)]
  · congr 1
    · rw [List.mapIdx_eq_zipIdx_map]
      conv_rhs => rw [← List.zipIdx_map_fst 0 js, List.map_map]
      rfl
    · rw [List.mapIdx_eq_zipIdx_map]
      exact List.zipIdx_map_fst 0 js
  · intro k j hj
    exact solver_quiet j (fun l hl => (h j (List.mem_of_getElem? hj) l hl).2) .RK4 n

/-- helper -/
theorem twoLayer_total (js : List (Junction ℝ)) (h : ∀ j ∈ js, j.layers.length = 1 ∨ j.layers.length = 2) :
    ∃ two, twoLayerLoop js = .ok two := by
  induction js with
  | nil => exact ⟨_, rfl⟩
  | cons j js ih =>
    unfold twoLayerLoop layerNo
    rw [if_neg (by have := h j (by simp); omega)]
    split
    · exact ⟨_, rfl⟩
    · exact ih fun x hx => h x (List.mem_cons_of_mem _ hx)

/-- helper -/
theorem run_of_ready (s : Stack ℝ) (two : Bool) (htwo : twoLayerLoop s.junctions = .ok two) (hready : Ready s two)
    (hlen : 2 ≤ s.junctions.length) (total dt wf : ℝ) (hdt : 0 < dt) (ht : 0 ≤ total) (hT : total / dt < 2 ^ 31) (hle : dt ≤ wf)
    (hW : wf / dt < 2 ^ 31) : ∃ s', s.runSimulation total dt wf = .ok () s' := by
  have hfl : 1 ≤ ⌊wf / dt⌋₊ := by rw [Nat.one_le_floor_iff]; rwa [one_le_div hdt]
  unfold runSimulation
  rw [cast_floor (div_nonneg (hdt.le.trans hle) hdt.le) hW, cast_floor (div_nonneg ht hdt.le) hT]
  dsimp only
  rw [if_neg (by simpa using hle), solvers_completes _ _ hready.calm]
  dsimp only [Out.ok]
  rw [show s.withJunctions s.junctions = s from rfl]
  split
  · rename_i h0
    have := hlen
    rw [List.map_eq_nil_iff.1 h0] at this
    simp at this
  · rename_i rm rest heq
    have hall : ∀ x ∈ rm :: rest, x.2 = SolverMode.RK4 := by
      intro x hx
      rw [← heq] at hx
      obtain ⟨j, -, rfl⟩ := List.mem_map.1 hx
      rfl
    rw [if_neg]
    · unfold isTwoLayerMemberStack
      rw [htwo]
      exact loop_completes _ two dt _ (by omega) _ 0 s hready
    · intro hany
      obtain ⟨x, hx, hne⟩ := List.any_eq_true.1 hany
      rw [hall x (List.mem_cons_of_mem _ hx), hall rm (by simp)] at hne
      simp at hne

/-- helper: such stacks run -/
theorem ready_of (s : Stack ℝ) (hr : StackReachable s)
    (hg : ∀ j ∈ s.junctions, ∀ l ∈ j.layers, l.Ms * l.thickness ≠ 0 ∧ ¬ Noisy l)
    (htop : ∀ j ∈ s.junctions, ∃ l, layerNamed s.topId j = some l)
    (hbot : TwoLayers s → ∀ j ∈ s.junctions, ∃ l, layerNamed s.bottomId j = some l)
    (href : ¬ TwoLayers s → ∃ p : CVec ℝ, p ≠ ⟨0, 0, 0⟩ ∧ ∀ k < s.junctions.length, memberRef s s.topId k = p)
    (hp : s.currentDriver.update = .pulse → s.currentDriver.period ≠ -1 ∧ s.currentDriver.cycle ≠ -1)
    (hs : s.currentDriver.update = .sine → s.currentDriver.frequency ≠ -1) :
    ∃ two, twoLayerLoop s.junctions = .ok two ∧ Ready s two := by
  have hv := reachable_valid hr
  have hcalm : ∀ j ∈ s.junctions, Calm j := fun j hj l hl => ⟨by simpa [Guard] using (hg j hj l hl).1, (hg j hj l hl).2⟩
  obtain ⟨two, htwo⟩ := twoLayer_total s.junctions hv.layers
  refine ⟨two, htwo, ?_⟩
  have hready : Ready s two := by
    refine ⟨hv.classic, hv.layers, hcalm, ?_, ?_, ?_, ?_, mul_completes _ hp hs, ?_⟩
    · intro j hj
      obtain ⟨l, hl⟩ := htop j hj
      unfold refOf; rw [hl]; rfl
    · intro h2 j hj
      rw [h2] at htwo
      obtain ⟨l, hl⟩ := hbot ((twoLayer_spec s).1 htwo) j hj
      unfold refOf; rw [hl]; rfl
    · intro h2
      rw [h2] at htwo
      have hnt : ¬ TwoLayers s := fun hn => by
        have := (twoLayer_spec s).2 hn
        unfold isTwoLayerMemberStack at this
        rw [htwo] at this; cases this
      obtain ⟨p, h1, h3⟩ := href hnt
      refine ⟨fun h0 => by have := hv.two; rw [h0] at this; simp at this, p, ?_, ?_⟩
      · intro h0; exact h1 (h0.trans (by rw [CVec.ext_iff]; exact ⟨by simp [CVec.zero], by simp [CVec.zero], by simp [CVec.zero]⟩))
      · intro j hj
        obtain ⟨k, hk⟩ := List.getElem?_of_mem hj
        have hk2 := h3 k (List.getElem?_eq_some_iff.1 hk).1
        unfold memberRef at hk2
        rw [hk, Option.bind_some] at hk2
        obtain ⟨l, hl⟩ := htop j hj
        unfold refOf
        rw [hl] at hk2 ⊢
        simpa using hk2
    · intro hd
      have := (twoLayer_spec s).2 (reachable_direct hr hd)
      unfold isTwoLayerMemberStack at this
      rw [htwo] at this; cases this; rfl
    · intro k hk
      exact ⟨_, (C34_reachable s hr).2.2 k hk⟩
  exact hready

/-- C34: a run of a stack never raises when its layers are noise-free with `Ms·thickness ≠ 0`, every junction has the
named top layer, the polarisers exist (a bottom layer in each junction, or one common non-zero reference), the stack's
driver is one its constructor accepts, and the times are sensible. -/
theorem C34_completes (s : Stack ℝ) (hr : StackReachable s)
    (hg : ∀ j ∈ s.junctions, ∀ l ∈ j.layers, l.Ms * l.thickness ≠ 0 ∧ ¬ Noisy l)
    (htop : ∀ j ∈ s.junctions, ∃ l, layerNamed s.topId j = some l)
    (hbot : TwoLayers s → ∀ j ∈ s.junctions, ∃ l, layerNamed s.bottomId j = some l)
    (href : ¬ TwoLayers s → ∃ p : CVec ℝ, p ≠ ⟨0, 0, 0⟩ ∧ ∀ k < s.junctions.length, memberRef s s.topId k = p)
    (hp : s.currentDriver.update = .pulse → s.currentDriver.period ≠ -1 ∧ s.currentDriver.cycle ≠ -1)
    (hs : s.currentDriver.update = .sine → s.currentDriver.frequency ≠ -1)
    (total dt wf : ℝ) (hdt : 0 < dt) (ht : 0 ≤ total) (hT : total / dt < 2 ^ 31) (hle : dt ≤ wf) (hW : wf / dt < 2 ^ 31) :
    ∃ s', s.runSimulation total dt wf = .ok () s' := by
  obtain ⟨two, htwo, hready⟩ := ready_of s hr hg htop hbot href hp hs
  exact run_of_ready s two htwo hready (reachable_valid hr).two total dt wf hdt ht hT hle hW

end Stack
