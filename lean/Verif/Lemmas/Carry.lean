import Verif.Lemmas.Scheme
import Verif.Props.Equilibrium

/-! One step of a noiseless junction, for each of the four runners, as a step of a one-step scheme for `rhs`. -/

set_option linter.unusedSectionVars false
set_option linter.unusedSimpArgs false
set_option maxSynthPendingDepth 4

namespace Order
open Spec Junction

variable {n : Nat}

/-! ### Runge-Kutta with the neighbours kept fixed -/

/-- forget the other layers -/
noncomputable def keep (i : Fin n) : X n →L[ℝ] X n :=
  (ContinuousLinearMap.fst ℝ ℝ (Fin n → V)).prod
    ((ContinuousLinearMap.single ℝ (fun _ : Fin n => V) i ∘L ContinuousLinearMap.proj (R := ℝ) (φ := fun _ : Fin n => V) i) ∘L
      ContinuousLinearMap.snd ℝ ℝ (Fin n → V))

@[simp] theorem keep_fst (i : Fin n) (z : X n) : (keep i z).1 = z.1 := rfl
theorem keep_snd (i : Fin n) (z : X n) : (keep i z).2 = Pi.single i (z.2 i) := rfl
@[simp] theorem keep_same (i : Fin n) (z : X n) : (keep i z).2 i = z.2 i := by rw [keep_snd]; simp
theorem keep_other (i k : Fin n) (h : k ≠ i) (z : X n) : (keep i z).2 k = 0 := by rw [keep_snd]; simp [h]

noncomputable def frozenSlope (L : Fin n → Layer ℝ) (z : X n) (h : ℝ) : X n :=
  (1, fun i => (rkSlope (rhs L) (keep i) z h).2 i)

/-- the scheme behind each runner -/
noncomputable def schemeSlope (r : Runner) (L : Fin n → Layer ℝ) : X n → ℝ → X n :=
  match r with
  | .heun => heunSlope (rhs L)
  | .eulerHeun => slope1 (rhs L)
  | .single => frozenSlope L
  | .multi => frozenSlope L

theorem low_frozen (z w : X n) (c : ℝ) (i : Fin n) : low (z + c • keep i w).2 i = low z.2 i := by
  unfold low
  split
  · rename_i h
    have : (⟨i.1 - 1, by omega⟩ : Fin n) ≠ i := by intro e; have := congrArg Fin.val e; simp at this; omega
    simp only [Prod.snd_add, Prod.smul_snd, Pi.add_apply, Pi.smul_apply, keep_other i _ this, smul_zero, add_zero]
  · rfl

theorem up_frozen (z w : X n) (c : ℝ) (i : Fin n) : up (z + c • keep i w).2 i = up z.2 i := by
  unfold up
  split
  · rename_i h
    have : (⟨i.1 + 1, h⟩ : Fin n) ≠ i := by intro e; have := congrArg Fin.val e; simp at this
    simp only [Prod.snd_add, Prod.smul_snd, Pi.add_apply, Pi.smul_apply, keep_other i _ this, smul_zero, add_zero]
  · rfl

theorem rhs_frozen (L : Fin n → Layer ℝ) (z w : X n) (hw : w.1 = 1) (c : ℝ) (i : Fin n) :
    (rhs L (z + c • keep i w)).2 i =
      toV (motion (L i) (z.1 + c) (ofV (z.2 i) + ofV (w.2 i) * c) (low z.2 i) (up z.2 i)) := by
  have e1 : (z + c • keep i w).1 = z.1 + c := by simp [hw]
  have e2 : ofV ((z + c • keep i w).2 i) = ofV (z.2 i) + ofV (w.2 i) * c := by
    ext <;> simp [mul_comm]
  show toV (motion (L i) (z + c • keep i w).1 (ofV ((z + c • keep i w).2 i)) (low (z + c • keep i w).2 i)
    (up (z + c • keep i w).2 i)) = _
  rw [e1, e2, low_frozen, up_frozen]

theorem rk4U_frozen (L : Fin n → Layer ℝ) (z : X n) (h : ℝ) (i : Fin n) :
    Layer.rk4U (fun s m => motion (L i) s m (low z.2 i) (up z.2 i)) z.1 h (ofV (z.2 i)) =
      ofV ((z + h • frozenSlope L z h).2 i) := by
  set f := fun s m => motion (L i) s m (low z.2 i) (up z.2 i) with hf
  have s1 : (slope1 (rhs L) z h).2 i = toV (f z.1 (ofV (z.2 i))) := rfl
  have s2 : (slope2 (rhs L) (keep i) z h).2 i =
      toV (f (z.1 + 1 / 2 * h) (ofV (z.2 i) + f z.1 (ofV (z.2 i)) * (1 / 2 * h))) := by
    unfold slope2
    rw [rhs_frozen _ _ _ rfl, s1]
    rfl
  have s3 : (slope3 (rhs L) (keep i) z h).2 i = toV (f (z.1 + 1 / 2 * h) (ofV (z.2 i) +
      f (z.1 + 1 / 2 * h) (ofV (z.2 i) + f z.1 (ofV (z.2 i)) * (1 / 2 * h)) * (1 / 2 * h))) := by
    unfold slope3
    rw [rhs_frozen _ _ _ rfl, s2]
    rfl
  have s4 : (slope4 (rhs L) (keep i) z h).2 i = toV (f (z.1 + 1 * h) (ofV (z.2 i) + f (z.1 + 1 / 2 * h) (ofV (z.2 i) +
      f (z.1 + 1 / 2 * h) (ofV (z.2 i) + f z.1 (ofV (z.2 i)) * (1 / 2 * h)) * (1 / 2 * h)) * (1 * h))) := by
    unfold slope4
    rw [rhs_frozen _ _ _ rfl, s3]
    rfl
  have e : (z + h • frozenSlope L z h).2 i = z.2 i + h • ((1 / 6 : ℝ) • ((slope1 (rhs L) z h).2 i +
      (2 : ℝ) • (slope2 (rhs L) (keep i) z h).2 i + (2 : ℝ) • (slope3 (rhs L) (keep i) z h).2 i +
      (slope4 (rhs L) (keep i) z h).2 i)) := rfl
  rw [e, s1, s2, s3, s4]
  unfold Layer.rk4U
  simp only [Scalar.ofSci_real_true]
  norm_num only
  have b1 : ∀ (m k : CVec ℝ), m + k * h * (1 / 2 : ℝ) = m + k * (1 / 2 * h) := by
    intro m k; ext <;> simp only [CVec.add_x, CVec.add_y, CVec.add_z, CVec.mulr_x, CVec.mulr_y, CVec.mulr_z] <;> ring
  simp only [b1, one_mul]
  have b2 : ∀ k1 k2 k3 k4 : CVec ℝ, Layer.rk4Combine (ofV (z.2 i)) (k1 * h) (k2 * h) (k3 * h) (k4 * h) =
      ofV (z.2 i + h • ((1 / 6 : ℝ) • (toV k1 + (2 : ℝ) • toV k2 + (2 : ℝ) • toV k3 + toV k4))) := by
    intro k1 k2 k3 k4
    unfold Layer.rk4Combine
    ext <;>
    · simp only [Scalar.ofSci_real_true, CVec.add_x, CVec.add_y, CVec.add_z, CVec.mulr_x, CVec.mulr_y, CVec.mulr_z, ofV_x,
        ofV_y, ofV_z, PiLp.add_apply, PiLp.smul_apply, smul_eq_mul, toV_0, toV_1, toV_2]
      norm_num
      ring
  exact b2 _ _ _ _

/-! ### What the layers of the junction hold -/

/-- the layers are `L`, with the magnetisations `M` and some record of the last fields -/
def Carries (L : Fin n → Layer ℝ) (M : Fin n → V) (ls : List (Layer ℝ)) : Prop :=
  ls.length = n ∧ ∀ i : Fin n, ∃ c, ls[i.1]? = some (((L i).setCache c).setMag (ofV (M i)))

theorem Carries.get {L : Fin n → Layer ℝ} {M : Fin n → V} {ls : List (Layer ℝ)} (h : Carries L M ls) {k : Nat} {l : Layer ℝ}
    (hl : ls[k]? = some l) : ∃ (hk : k < n) (c : LayerLog ℝ), l = ((L ⟨k, hk⟩).setCache c).setMag (ofV (M ⟨k, hk⟩)) := by
  have hk : k < n := by rw [← h.1]; exact (List.getElem?_eq_some_iff.1 hl).1
  obtain ⟨c, hc⟩ := h.2 ⟨k, hk⟩
  refine ⟨hk, c, ?_⟩
  have : ls[k]? = some _ := hc
  rw [hl] at this
  exact Option.some.inj this

theorem Carries.mags {L : Fin n → Layer ℝ} {M : Fin n → V} {ls : List (Layer ℝ)} (h : Carries L M ls) :
    ls.map Layer.mag = (List.finRange n).map fun i => ofV (M i) := by
  apply List.ext_getElem?
  intro k
  rw [List.getElem?_map, List.getElem?_map]
  by_cases hk : k < n
  · obtain ⟨c, hc⟩ := h.2 ⟨k, hk⟩
    rw [hc, List.getElem?_eq_getElem (by simpa using hk)]
    simp [Layer.setMag]
  · rw [List.getElem?_eq_none_iff.2 (by rw [h.1]; omega), List.getElem?_eq_none_iff.2 (by simp; omega)]; rfl

theorem below_mags (M : Fin n → V) (i : Fin n) : below ((List.finRange n).map fun i => ofV (M i)) i.1 = low M i := by
  unfold below low
  by_cases h : 0 < i.1
  · rw [if_neg (by omega), dif_pos h, List.getD_eq_getElem?_getD, List.getElem?_map,
      List.getElem?_eq_getElem (by simp; omega)]
    simp
  · rw [if_pos (by omega), dif_neg h]; ext <;> simp

theorem above_mags (M : Fin n → V) (i : Fin n) : above ((List.finRange n).map fun i => ofV (M i)) i.1 = up M i := by
  unfold above up
  have hi := i.2
  rw [List.length_map, List.length_finRange]
  by_cases h : i.1 + 1 < n
  · rw [if_neg (by omega), dif_pos h, List.getD_eq_getElem?_getD, List.getElem?_map,
      List.getElem?_eq_getElem (by simp; omega)]
    simp
  · rw [if_pos (by omega), dif_neg h]; ext <;> simp

/-- the layer without noise and with a meaningful volume -/
def Quiet (l : Layer ℝ) : Prop := l.Guard ∧ l.temperatureSet = false ∧ l.noiseParams.scaleNoise = 0

theorem llgV_layer (l : Layer ℝ) (c : LayerLog ℝ) (v : CVec ℝ) (t : ℝ) (m b a : CVec ℝ) (hg : l.Guard) :
    ((l.setCache c).setMag v).llgV t m b a = motion l t m b a := by
  rw [llgV_eq ((l.setCache c).setMag v) t m b a hg]; rfl

section
variable {l : Layer ℝ} (hq : Quiet l) (c : LayerLog ℝ) (m : CVec ℝ) (t dt : ℝ)
include hq

theorem Quiet.rk4 (b a : CVec ℝ) : ∃ d, ((l.setCache c).setMag m).rk4Step t dt b a =
    .ok () ((l.setCache d).setMag (Layer.rk4U (fun s m => motion l s m b a) t dt m).normalize) := by
  obtain ⟨d, hd⟩ := ((l.setCache c).setMag m).rk4Step_ok t dt b a hq.1
  have e : ((l.setCache c).setMag m).rk4V t dt b a = (Layer.rk4U (fun s m => motion l s m b a) t dt m).normalize := by
    unfold Layer.rk4V
    simp only [llgV_layer l c m _ _ _ _ hq.1]
    rfl
  rw [e, if_neg (by simp)] at hd
  exact ⟨d, hd⟩

theorem Quiet.euler (ms : List (CVec ℝ)) (i : Nat) : ∃ d, eulerHeunLayer ms t dt i ((l.setCache c).setMag m) =
    .ok (m + motion l t m (below ms i) (above ms i) * dt) ((l.setCache d).setMag m) := by
  obtain ⟨e1, e2⟩ := noiseless_vectors ((l.setCache c).setMag m) t hq.2.1 hq.2.2
  obtain ⟨d, hd⟩ := ((l.setCache c).setMag m).llg_ok t m (below ms i) (above ms i) hq.1
  refine ⟨d, ?_⟩
  unfold eulerHeunLayer
  have hm : ((l.setCache c).setMag m).mag = m := rfl
  simp only [e1, e2, Out.bind_ok, hm, hd, llgV_layer l c m _ _ _ _ hq.1, addz, zmul, lzmul, stochasticTorque_zero]
  rfl

theorem Quiet.predict (ms : List (CVec ℝ)) (i : Nat) : ∃ d, heunPredict ms t dt i ((l.setCache c).setMag m) =
    .ok ⟨motion l t m (below ms i) (above ms i), .zero, .zero, m + motion l t m (below ms i) (above ms i) * dt⟩
      ((l.setCache d).setMag m) := by
  obtain ⟨d, hd⟩ := ((l.setCache c).setMag m).llg_ok t m (below ms i) (above ms i) hq.1
  refine ⟨d, ?_⟩
  obtain ⟨e1, e2⟩ := noiseless_vectors (((l.setCache c).setMag m).setCache d) t hq.2.1 hq.2.2
  unfold heunPredict
  have hm : ((l.setCache c).setMag m).mag = m := rfl
  simp only [e1, e2, Out.bind_ok, hm, hd, llgV_layer l c m _ _ _ _ hq.1, addz, zmul, lzmul, stochasticTorque_zero]
  rfl

theorem Quiet.correct (ss : List (HeunStage ℝ)) (i : Nat) (f g : CVec ℝ) (hs : ss[i]? = some ⟨f, .zero, .zero, g⟩) :
    ∃ d, heunCorrect ss t dt i ((l.setCache c).setMag m) = .ok () ((l.setCache d).setMag (m + (1 / 2 * dt) *
      (f + motion l (t + dt) g (below (ss.map HeunStage.mNext) i) (above (ss.map HeunStage.mNext) i))).normalize) := by
  obtain ⟨d, hd⟩ := ((l.setCache c).setMag m).llg_ok (t + dt) g (below (ss.map HeunStage.mNext) i)
    (above (ss.map HeunStage.mNext) i) hq.1
  refine ⟨d, ?_⟩
  unfold heunCorrect
  simp only [hs, hd, Out.bind_ok, llgV_layer l c m _ _ _ _ hq.1, addz, zmul, lzmul, stochasticTorque_zero,
    Scalar.ofSci_real_true]
  norm_num only
  rfl

end

/-- One step, whatever the runner. -/
theorem Carries.step {L : Fin n → Layer ℝ} {M : Fin n → V} {j : Junction ℝ} (h : Carries L M j.layers) (hq : ∀ i, Quiet (L i))
    (r : Runner) (h1 : r = .single → n = 1) (t dt : ℝ) : ∃ k, j.runStep r t dt = .ok () k ∧
      Carries L (renormalise ((t, M) + dt • schemeSlope r L (t, M) dt)).2 k.layers := by
  have hlen := h.1
  cases r with
  | single =>
    have hn := h1 rfl
    subst hn
    obtain ⟨l, hl⟩ := List.length_eq_one_iff.1 hlen
    obtain ⟨c, hc⟩ := h.2 0
    have : l = ((L 0).setCache c).setMag (ofV (M 0)) := by
      rw [hl] at hc; exact Option.some.inj hc
    subst this
    obtain ⟨d, hd⟩ := (hq 0).rk4 c (ofV (M 0)) t dt .zero .zero
    unfold runStep runSingleLayerSolver
    dsimp only
    rw [hl]
    dsimp only
    rw [hd]
    refine ⟨_, rfl, rfl, fun i => ⟨d, ?_⟩⟩
    have hi : i = 0 := Subsingleton.elim _ _
    subst hi
    have := rk4U_frozen L (t, M) dt 0
    have hb : low M 0 = .zero := by unfold low; simp; ext <;> simp
    have ha : up M 0 = .zero := by unfold up; simp; ext <;> simp
    simp only [hb, ha] at this
    show some _ = some _
    rw [this]
    rfl
  | multi =>
    obtain ⟨bs, ls, ht, hbl, hlen2, hP⟩ := Out.traverse_exists (fun i l => l.rk4Step t dt ((magCopies j.layers).getD i .zero)
      ((magCopies j.layers).getD (i + 2) .zero)) (fun k _ _ l' => ∃ (hk : k < n) (d : LayerLog ℝ), l' =
        ((L ⟨k, hk⟩).setCache d).setMag (ofV (((t, M) + dt • frozenSlope L (t, M) dt).2 ⟨k, hk⟩)).normalize) 0 j.layers (by
        intro k l hk
        obtain ⟨hkn, c, rfl⟩ := h.get hk
        have hlt : k < j.layers.length := (List.getElem?_eq_some_iff.1 hk).1
        rw [Nat.zero_add, copies_below _ _ hlt, copies_above _ _ hlt, ← below_eq, ← above_eq, h.mags,
          below_mags M ⟨k, hkn⟩, above_mags M ⟨k, hkn⟩]
        obtain ⟨d, hd⟩ := (hq ⟨k, hkn⟩).rk4 c (ofV (M ⟨k, hkn⟩)) t dt (low M ⟨k, hkn⟩) (up M ⟨k, hkn⟩)
        rw [rk4U_frozen L (t, M) dt ⟨k, hkn⟩] at hd
        exact ⟨_, _, hd, hkn, d, rfl⟩)
    unfold runStep runMultiLayerSolver
    dsimp only
    rw [ht]
    refine ⟨_, rfl, by show ls.length = n; omega, fun i => ?_⟩
    have hi := i.2
    obtain ⟨hk, d, e⟩ := hP i.1 j.layers[i.1] bs[i.1] ls[i.1] (List.getElem?_eq_getElem (by omega))
      (List.getElem?_eq_getElem (by omega)) (List.getElem?_eq_getElem (by omega))
    refine ⟨d, ?_⟩
    show ls[i.1]? = _
    rw [List.getElem?_eq_getElem (by omega), e]
    simp only [Nat.zero_add]
    rfl
  | heun =>
    obtain ⟨ss, ls, ht, hsl, hlen2, hP⟩ := Out.traverse_exists (heunPredict (j.layers.map Layer.mag) t dt)
      (fun k _ s l' => ∃ (hk : k < n) (d : LayerLog ℝ), l' = ((L ⟨k, hk⟩).setCache d).setMag (ofV (M ⟨k, hk⟩)) ∧
        s = ⟨ofV ((rhs L (t, M)).2 ⟨k, hk⟩), .zero, .zero, ofV (((t, M) + (1 * dt) • rhs L (t, M)).2 ⟨k, hk⟩)⟩) 0 j.layers (by
        intro k l hk
        obtain ⟨hkn, c, rfl⟩ := h.get hk
        rw [Nat.zero_add, h.mags]
        obtain ⟨d, hd⟩ := (hq ⟨k, hkn⟩).predict c (ofV (M ⟨k, hkn⟩)) t dt ((List.finRange n).map fun i => ofV (M i)) k
        rw [below_mags M ⟨k, hkn⟩, above_mags M ⟨k, hkn⟩] at hd
        refine ⟨_, _, hd, hkn, d, rfl, ?_⟩
        simp only [HeunStage.mk.injEq, true_and]
        refine ⟨rfl, ?_⟩
        ext <;> simp [rhs] <;> ring)
    have hs : ∀ k (hk : k < n), ss[k]? = some ⟨ofV ((rhs L (t, M)).2 ⟨k, hk⟩), .zero, .zero,
        ofV (((t, M) + (1 * dt) • rhs L (t, M)).2 ⟨k, hk⟩)⟩ := by
      intro k hk
      obtain ⟨_, d, _, e⟩ := hP k j.layers[k] ss[k] ls[k] (List.getElem?_eq_getElem (by omega))
        (List.getElem?_eq_getElem (by omega)) (List.getElem?_eq_getElem (by omega))
      rw [List.getElem?_eq_getElem (by omega), e]
      simp only [Nat.zero_add]
    have hnext : ss.map HeunStage.mNext = (List.finRange n).map fun i => ofV (((t, M) + (1 * dt) • rhs L (t, M)).2 i) := by
      apply List.ext_getElem?
      intro k
      rw [List.getElem?_map, List.getElem?_map]
      by_cases hk : k < n
      · rw [hs k hk, List.getElem?_eq_getElem (by simpa using hk)]
        simp
      · rw [List.getElem?_eq_none_iff.2 (by omega), List.getElem?_eq_none_iff.2 (by simp; omega)]; rfl
    obtain ⟨bs, ls', ht', hbl, hlen', hP'⟩ := Out.traverse_exists (heunCorrect ss t dt)
      (fun k _ _ l' => ∃ (hk : k < n) (d : LayerLog ℝ), l' =
        ((L ⟨k, hk⟩).setCache d).setMag (ofV (((t, M) + dt • heunSlope (rhs L) (t, M) dt).2 ⟨k, hk⟩)).normalize) 0 ls (by
        intro k l hk
        have hkn : k < n := by have := (List.getElem?_eq_some_iff.1 hk).1; omega
        obtain ⟨_, d, e, _⟩ := hP k j.layers[k] ss[k] l (List.getElem?_eq_getElem (by omega))
          (List.getElem?_eq_getElem (by omega)) hk
        simp only [Nat.zero_add] at e ⊢
        subst e
        obtain ⟨d', hd'⟩ := (hq ⟨k, hkn⟩).correct d (ofV (M ⟨k, hkn⟩)) t dt ss k _ _ (hs k hkn)
        rw [hnext, below_mags _ ⟨k, hkn⟩, above_mags _ ⟨k, hkn⟩] at hd'
        refine ⟨_, _, hd', hkn, d', ?_⟩
        congr 2
        have e2 : ((t, M) + dt • heunSlope (rhs L) (t, M) dt).2 ⟨k, hkn⟩ = M ⟨k, hkn⟩ + dt • ((1 / 2 : ℝ) •
          ((rhs L (t, M)).2 ⟨k, hkn⟩ + (rhs L ((t, M) + (1 * dt) • rhs L (t, M))).2 ⟨k, hkn⟩)) := rfl
        have e3 : (rhs L ((t, M) + (1 * dt) • rhs L (t, M))).2 ⟨k, hkn⟩ = toV (motion (L ⟨k, hkn⟩) (t + dt)
          (ofV (((t, M) + (1 * dt) • rhs L (t, M)).2 ⟨k, hkn⟩)) (low ((t, M) + (1 * dt) • rhs L (t, M)).2 ⟨k, hkn⟩)
          (up ((t, M) + (1 * dt) • rhs L (t, M)).2 ⟨k, hkn⟩)) := by
          have : ((t, M) + (1 * dt) • rhs L (t, M)).1 = t + dt := by simp [rhs]
          rw [← this]; rfl
        rw [e2, e3]
        generalize motion _ _ _ _ _ = w
        ext <;> simp <;> ring)
    unfold runStep heunSolverStep
    dsimp only
    rw [ht]
    dsimp only [Out.ok]
    rw [ht']
    refine ⟨_, rfl, by show ls'.length = n; omega, fun i => ?_⟩
    have hi := i.2
    obtain ⟨hk, d, e⟩ := hP' i.1 ls[i.1] bs[i.1] ls'[i.1] (List.getElem?_eq_getElem (by omega))
      (List.getElem?_eq_getElem (by omega)) (List.getElem?_eq_getElem (by omega))
    refine ⟨d, ?_⟩
    show ls'[i.1]? = _
    rw [List.getElem?_eq_getElem (by omega), e]
    simp only [Nat.zero_add]
    rfl
  | eulerHeun =>
    obtain ⟨ms, ls, ht, hml, hlen2, hP⟩ := Out.traverse_exists (eulerHeunLayer (j.layers.map Layer.mag) t dt)
      (fun k _ m l' => ∃ (hk : k < n) (d : LayerLog ℝ), l' = ((L ⟨k, hk⟩).setCache d).setMag (ofV (M ⟨k, hk⟩)) ∧
        m = ofV (((t, M) + dt • rhs L (t, M)).2 ⟨k, hk⟩)) 0 j.layers (by
        intro k l hk
        obtain ⟨hkn, c, rfl⟩ := h.get hk
        rw [Nat.zero_add, h.mags]
        obtain ⟨d, hd⟩ := (hq ⟨k, hkn⟩).euler c (ofV (M ⟨k, hkn⟩)) t dt ((List.finRange n).map fun i => ofV (M i)) k
        rw [below_mags M ⟨k, hkn⟩, above_mags M ⟨k, hkn⟩] at hd
        refine ⟨_, _, hd, hkn, d, rfl, ?_⟩
        ext <;> simp [rhs] <;> ring)
    have hst : ∀ (ls : List (Layer ℝ)) (ms : List (CVec ℝ)) (k : Nat) l m, ls[k]? = some l → ms[k]? = some m →
        (storeMags ls ms)[k]? = some (l.setMag m.normalize) := by
      intro ls
      induction ls with
      | nil => intro ms k l m hl; simp at hl
      | cons a ls ih =>
        intro ms k l m hl hm
        cases ms with
        | nil => simp at hm
        | cons b ms =>
          cases k with
          | zero => simp at hl hm; subst hl hm; rfl
          | succ k => exact ih ms k l m (by simpa using hl) (by simpa using hm)
    have hsl : ∀ (ls : List (Layer ℝ)) ms, (storeMags ls ms).length = ls.length := by
      intro ls
      induction ls with
      | nil => intro ms; cases ms <;> rfl
      | cons l ls ih => intro ms; cases ms with
        | nil => rfl
        | cons m ms => simp [storeMags, ih]
    unfold runStep eulerHeunSolverStep
    dsimp only
    rw [ht]
    refine ⟨_, rfl, by show (storeMags ls ms).length = n; rw [hsl]; omega, fun i => ?_⟩
    have hi := i.2
    obtain ⟨hk, d, e1, e2⟩ := hP i.1 j.layers[i.1] ms[i.1] ls[i.1] (List.getElem?_eq_getElem (by omega))
      (List.getElem?_eq_getElem (by omega)) (List.getElem?_eq_getElem (by omega))
    refine ⟨d, ?_⟩
    show (storeMags ls ms)[i.1]? = _
    rw [hst ls ms i.1 _ _ (List.getElem?_eq_getElem (by omega)) (List.getElem?_eq_getElem (by omega)), e1, e2]
    simp only [Nat.zero_add]
    rfl

end Order
