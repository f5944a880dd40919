import Verif.Lemmas.Llgb
import Verif.Props.Logs

/-! # C29 (LLGB part), C44, C66: runs of LLGB junctions -/

set_option linter.unusedSectionVars false

namespace LLGBJunction
open Spec LLGBLayer

section
variable {T : Type} [Scalar T]

/-- helper -/
theorem run_core {j k : LLGBJunction T} {total dt wf : T} {mode : SolverMode} {n : Nat} {r : Runner}
    (h : j.runSimulation total dt wf mode = .ok () k) (hn : Stack.castUnsigned (total / dt) = some n) (hr : getSolver mode = .ok r) :
    Core (evolve r dt n j) k := by
  obtain ⟨-, n', w, r', hn', -, hr', hl⟩ := run_inv h
  rw [hn] at hn'; rw [hr] at hr'
  simp only [Option.some.injEq, Except.ok.injEq] at hn' hr'
  subst hn' hr'
  rcases Nat.eq_zero_or_pos w with rfl | hw
  · cases n with
    | zero => simp only [loop, Out.ok, Out.mk.injEq, true_and] at hl; subst hl; exact ⟨rfl, rfl⟩
    | succ n => rw [loop_succ, if_pos rfl] at hl; simp [Out.ok, Out.fail] at hl
  · obtain ⟨k', h1, h2⟩ := loop_core r dt w hw.ne' n 0 j
    rw [h1] at hl
    simp only [Out.ok, Out.mk.injEq, true_and] at hl
    exact hl ▸ h2

/-- C29, LLGB: the junction keeps its clock, so for all drivers (and with the same noise draws) a run of `n` steps followed by a run of `m` steps leaves every
layer and the clock as one run of `n + m` steps does. For every scalar type. -/
theorem C29_llgb {j k1 k2 k3 : LLGBJunction T} {t1 t2 t3 dt w1 w2 w3 : T} {mode : SolverMode} {n m : Nat}
    (hn : Stack.castUnsigned (t1 / dt) = some n) (hm : Stack.castUnsigned (t2 / dt) = some m)
    (hnm : Stack.castUnsigned (t3 / dt) = some (n + m)) (h1 : j.runSimulation t1 dt w1 mode = .ok () k1)
    (h2 : k1.runSimulation t2 dt w2 mode = .ok () k2) (h3 : j.runSimulation t3 dt w3 mode = .ok () k3) :
    k3.layers = k2.layers ∧ k3.time = k2.time := by
  obtain ⟨-, -, -, r, -, -, hr, -⟩ := run_inv h1
  have c1 := run_core h1 hn hr
  have c2 := run_core h2 hm hr
  have c3 := run_core h3 hnm hr
  rw [evolve_add] at c3
  have c4 := c1.evolve r dt m
  exact ⟨c3.1.trans (c4.1.symm.trans c2.1.symm), c3.2.trans (c4.2.symm.trans c2.2.symm)⟩

/-- C29, LLGB: a run succeeds exactly when the arguments are valid: whether it does never depends on the junction. -/
theorem C29_llgb_succeeds (j : LLGBJunction T) {t dt wf : T} {mode : SolverMode} {n w : Nat} (h0 : Scalar.ltb wf dt = false)
    (hn : Stack.castUnsigned (t / dt) = some n) (hw : Stack.castUnsigned (wf / dt) = some w) (hw0 : w ≠ 0)
    (hmode : mode = .HEUN ∨ mode = .EULER_HEUN) : ∃ k, j.runSimulation t dt wf mode = .ok () k := by
  obtain ⟨r, hr⟩ : ∃ r, getSolver mode = .ok r := by
    rcases hmode with rfl | rfl <;> simp [getSolver]
  rw [run_of h0 hn hw hr]
  obtain ⟨k, h, -⟩ := loop_core r dt w hw0 n 0 j
  exact ⟨k, h⟩

end

/-- helper: casts of non-negative reals -/
theorem cast_floor {q : ℝ} (h0 : 0 ≤ q) (h1 : q < 2147483648) : Stack.castUnsigned q = some ⌊q⌋₊ := by
  have h2 : -2147483649 < q ∧ q < 2147483648 := ⟨by linarith, h1⟩
  have h3 : ⌊q⌋ = (⌊q⌋₊ : ℤ) := (Int.natCast_floor_eq_floor h0).symm
  have h4 : ⌊q⌋₊ < 2147483648 := by rw [Nat.floor_lt h0]; exact_mod_cast h1
  simp only [Stack.castUnsigned, Scalar.toInt, if_pos h2, Option.map_some, Scalar.truncR, if_pos h0, h3]
  congr 1
  omega

/-- C29, LLGB, in real arithmetic: `n` steps then `m` steps against `n + m` steps. -/
theorem C29_llgb_real (j : LLGBJunction ℝ) {dt wf : ℝ} (hdt : 0 < dt) (hle : dt ≤ wf) (hW : wf / dt < 2 ^ 31) {mode : SolverMode}
    (hmode : mode = .HEUN ∨ mode = .EULER_HEUN) (n m : Nat) (hnm : n + m < 2 ^ 31) :
    ∃ k1 k2 k3, j.runSimulation (n * dt) dt wf mode = .ok () k1 ∧ k1.runSimulation (m * dt) dt wf mode = .ok () k2 ∧
      j.runSimulation (((n + m : Nat) : ℝ) * dt) dt wf mode = .ok () k3 ∧ k3.layers = k2.layers ∧ k3.time = k2.time := by
  have hcount : ∀ q : Nat, q < 2 ^ 31 → Stack.castUnsigned ((q : ℝ) * dt / dt) = some q := by
    intro q hlt
    rw [mul_div_assoc, div_self hdt.ne', mul_one, cast_floor (by positivity) (by exact_mod_cast hlt)]
    simp
  have hfl : 1 ≤ ⌊wf / dt⌋₊ := by rw [Nat.one_le_floor_iff]; rwa [one_le_div hdt]
  have hw := cast_floor (div_nonneg (hdt.le.trans hle) hdt.le) (by norm_num at hW ⊢; exact hW)
  have h0 : Scalar.ltb wf dt = false := by simpa using hle
  obtain ⟨k1, h1⟩ := C29_llgb_succeeds j h0 (hcount n (by omega)) hw (by omega) hmode
  obtain ⟨k2, h2⟩ := C29_llgb_succeeds k1 h0 (hcount m (by omega)) hw (by omega) hmode
  obtain ⟨k3, h3⟩ := C29_llgb_succeeds j h0 (hcount (n + m) hnm) hw (by omega) hmode
  exact ⟨k1, k2, k3, h1, h2, h3, C29_llgb (hcount n (by omega)) (hcount m (by omega)) (hcount (n + m) hnm) h1 h2 h3⟩

/-! ## C44: the noise has no effect -/

/-- C44: both thermal fields are identically zero, at every temperature and for every draw. -/
theorem C44_fields_vanish (l : LLGBLayer ℝ) (t : ℝ) :
    (l.nonadiabaticThermalField t).1 = .zero ∧ (l.adiabaticThermalField t).1 = .zero := by
  constructor <;> ext <;> simp [nonadiabaticThermalField, adiabaticThermalField]

/-- helper -/
theorem SameButNoise.step {l l' : LLGBLayer ℝ} (h : SameButNoise l l') (r : Runner) (t dt : ℝ) :
    SameButNoise (stepLayer r t dt l) (stepLayer r t dt l') := by
  obtain ⟨a, p, b, q, rfl⟩ := h
  cases r
  · refine ⟨a, p + 3, b, q + 3, ?_⟩
    simp only [stepLayer, heunPredict, heunCorrect, (C44_fields_vanish _ _).1, (C44_fields_vanish _ _).2, llg_reseed, stoch_reseed,
      nonad_reseed, ad_reseed, reseed_mag]
    rfl
  · refine ⟨a, p + 3, b, q + 3, ?_⟩
    simp only [stepLayer, eulerHeunLayer, (C44_fields_vanish _ _).1, (C44_fields_vanish _ _).2, llg_reseed, stoch_reseed,
      nonad_reseed, ad_reseed, reseed_mag]
    rfl

/-- helper: the same junction up to the noise generators -/
def Twin (j j' : LLGBJunction ℝ) : Prop :=
  List.Forall₂ SameButNoise j.layers j'.layers ∧ j'.log = j.log ∧ j'.logLength = j.logLength ∧ j'.time = j.time

/-- helper -/
theorem Twin.entries {ls ls' : List (LLGBLayer ℝ)} (h : List.Forall₂ SameButNoise ls ls') :
    ls'.flatMap layerEntries = ls.flatMap layerEntries := by
  induction h with
  | nil => rfl
  | cons h _ ih =>
    obtain ⟨_, _, _, _, rfl⟩ := h
    simp only [List.flatMap_cons, ih]; rfl

/-- helper -/
theorem Twin.mags {ls ls' : List (LLGBLayer ℝ)} (h : List.Forall₂ SameButNoise ls ls') :
    ls'.map LLGBLayer.mag = ls.map LLGBLayer.mag := by
  induction h with
  | nil => rfl
  | cons h _ ih =>
    obtain ⟨_, _, _, _, rfl⟩ := h
    simp only [List.map_cons, ih]; rfl

/-- helper -/
theorem Twin.tick {j j' : LLGBJunction ℝ} (h : Twin j j') (r : Runner) (dt : ℝ) : Twin (tick r dt j) (LLGBJunction.tick r dt j') := by
  obtain ⟨h1, h2, h3, h4⟩ := h
  refine ⟨?_, h2, h3, by simp only [LLGBJunction.tick, h4]⟩
  simp only [LLGBJunction.tick, h4]
  exact List.forall₂_map_left_iff.2 (List.forall₂_map_right_iff.2 (h1.imp fun _ _ h => SameButNoise.step h r _ dt))

/-- helper -/
theorem Twin.log {j j' : LLGBJunction ℝ} (h : Twin j j') (t : ℝ) : Twin (j.logLayerParams t) (j'.logLayerParams t) := by
  obtain ⟨h1, h2, h3, h4⟩ := h
  exact ⟨h1, by simp only [logLayerParams, h2, Twin.entries h1], by simp only [logLayerParams, h3], h4⟩

/-- helper -/
theorem Twin.loop {j j' : LLGBJunction ℝ} (h : Twin j j') (r : Runner) (dt : ℝ) (we n i : Nat) :
    (loop r dt we i n j').res = (LLGBJunction.loop r dt we i n j).res ∧
    Twin (LLGBJunction.loop r dt we i n j).st (LLGBJunction.loop r dt we i n j').st := by
  induction n generalizing i j j' with
  | zero => exact ⟨rfl, h⟩
  | succ n ih =>
    rw [loop_succ, loop_succ, h.2.2.2]
    split
    · exact ⟨rfl, h.tick r dt⟩
    · split
      · exact ih ((h.tick r dt).log _) (i + 1)
      · exact ih (h.tick r dt) (i + 1)

/-- C44, what holds instead: replacing the noise generators of the layers by any others changes neither the outcome of a run
nor any magnetisation nor the log. -/
theorem C44_noise_ignored (j j' : LLGBJunction ℝ) (h : List.Forall₂ SameButNoise j.layers j'.layers) (hl : j'.log = j.log)
    (hn : j'.logLength = j.logLength) (ht : j'.time = j.time) (total dt wf : ℝ) (mode : SolverMode) :
    (j'.runSimulation total dt wf mode).res = (j.runSimulation total dt wf mode).res ∧
    (j'.runSimulation total dt wf mode).st.layers.map LLGBLayer.mag = (j.runSimulation total dt wf mode).st.layers.map LLGBLayer.mag ∧
    (j'.runSimulation total dt wf mode).st.log = (j.runSimulation total dt wf mode).st.log := by
  have hT : Twin j j' := ⟨h, hl, hn, ht⟩
  have key : (j'.runSimulation total dt wf mode).res = (j.runSimulation total dt wf mode).res ∧
      Twin (j.runSimulation total dt wf mode).st (j'.runSimulation total dt wf mode).st := by
    unfold runSimulation
    split
    · exact ⟨rfl, hT⟩
    · split
      · split
        · exact ⟨rfl, hT⟩
        · exact hT.loop _ _ _ _ _
      · exact ⟨rfl, hT⟩
  refine ⟨key.1, ?_, key.2.2.1⟩
  exact Twin.mags key.2.1

/-- C44 refuted: there is no junction, at any temperature, and no run in which two noise realisations lead to different
magnetisations. -/
theorem C44_refuted : ¬ ∃ (ls ls' : List (LLGBLayer ℝ)) (total dt wf : ℝ) (mode : SolverMode), List.Forall₂ SameButNoise ls ls' ∧
    ((mk' ls').runSimulation total dt wf mode).st.layers.map LLGBLayer.mag ≠
      ((mk' ls).runSimulation total dt wf mode).st.layers.map LLGBLayer.mag := by
  rintro ⟨ls, ls', total, dt, wf, mode, h, hne⟩
  exact hne (C44_noise_ignored (mk' ls) (mk' ls') h rfl rfl rfl total dt wf mode).2.1

end LLGBJunction
