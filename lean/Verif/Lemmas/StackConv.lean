import Verif.Lemmas.OneStep
import Verif.Spec.MotionStack

/-! The coupled equations of motion of a stack, in the form needed for the convergence of joint steps. -/

set_option linter.unusedSectionVars false
set_option linter.unusedSimpArgs false
set_option maxSynthPendingDepth 4

namespace Order
open Spec Junction Layer

theorem scaled_value {d : ScalarDriver ℝ} (h : SmoothKind d) (w ph t : ℝ) :
    (scaled d w ph).value t = w * (scaled d 1 ph).value t := by
  rcases h with h | h | h | h <;> simp only [ScalarDriver.value, scaled, h] <;> ring

section
variable {E : Type*} [NormedAddCommGroup E] [NormedSpace ℝ E] {z : E}

theorem motion_current {d : ScalarDriver ℝ} (h : SmoothKind d) (l : Layer ℝ) (w ph t : ℝ) (m b a : CVec ℝ) :
    motion (driven (scaled d w ph) l) t m b a = motion (driven (scaled d 0 ph) l) t m b a +
      smul w (motion (driven (scaled d 1 ph) l) t m b a - motion (driven (scaled d 0 ph) l) t m b a) := by
  have hf : ∀ x, field (driven (scaled d x ph) l) t m b a = field l t m b a := fun _ => rfl
  have hp : ∀ x, polariser (driven (scaled d x ph) l) b a = polariser l b a := fun _ => rfl
  have hd : ∀ x, (driven (scaled d x ph) l).damping = l.damping := fun _ => rfl
  have hs : spinTorque (driven (scaled d w ph) l) t m (polariser l b a) = spinTorque (driven (scaled d 0 ph) l) t m (polariser l b a) +
      smul w (spinTorque (driven (scaled d 1 ph) l) t m (polariser l b a) - spinTorque (driven (scaled d 0 ph) l) t m (polariser l b a)) := by
    have ha : ∀ x, sttAmplitude (driven (scaled d x ph) l) t = x * sttAmplitude (driven (scaled d 1 ph) l) t := by
      intro x
      unfold sttAmplitude driven
      dsimp only
      rw [scaled_value h x]
      ring
    have he : ∀ x, sttEfficiency (driven (scaled d x ph) l) m (polariser l b a) = sttEfficiency l m (polariser l b a) := fun _ => rfl
    by_cases h1 : l.includeSTT = true
    · have e : ∀ x, spinTorque (driven (scaled d x ph) l) t m (polariser l b a) =
          smul (sttAmplitude (driven (scaled d x ph) l) t * sttEfficiency l m (polariser l b a) * l.beta) (m.cross (polariser l b a)) -
          smul (sttAmplitude (driven (scaled d x ph) l) t * sttEfficiency l m (polariser l b a) * l.kappa)
            (m.cross (m.cross (polariser l b a))) := fun x => if_pos h1
      rw [e, e 0, e 1, ha w, ha 0]
      ext <;> simp [smul] <;> ring
    · by_cases h2 : l.includeSOT = true
      · by_cases h3 : l.dynamicSOT = true
        · have e : ∀ x, spinTorque (driven (scaled d x ph) l) t m (polariser l b a) = spinTorque (driven (scaled d 0 ph) l) t m (polariser l b a) := by
            intro x
            unfold spinTorque driven Layer.sotFields
            simp [h1, h2, h3]
          rw [e w, e 1]
          ext <;> simp [smul]
        · have e : ∀ x, spinTorque (driven (scaled d x ph) l) t m (polariser l b a) = smul x
              (⟨0, 0, 0⟩ - smul ((l.fieldLikeTorque - l.damping * l.dampingLikeTorque) * (scaled d 1 ph).value t) (m.cross (polariser l b a)) -
                smul ((l.dampingLikeTorque + l.damping * l.fieldLikeTorque) * (scaled d 1 ph).value t) (m.cross (m.cross (polariser l b a)))) := by
            intro x
            unfold spinTorque driven Layer.sotFields
            simp only [h1, h2, h3, if_true, if_false, Bool.false_eq_true, scaled_value h x]
            ext <;> simp [smul] <;> ring
          rw [e w, e 0, e 1]
          ext <;> simp [smul]
      · have e : ∀ x, spinTorque (driven (scaled d x ph) l) t m (polariser l b a) = ⟨0, 0, 0⟩ := by
          intro x
          unfold spinTorque driven
          simp [h1, h2]
        rw [e w, e 0, e 1]
        ext <;> simp [smul]
  unfold motion
  simp only [hf, hp, hd]
  rw [hs]
  ext <;> simp [smul] <;> ring

end

theorem smooth_driven {d d' : ScalarDriver ℝ} {l : Layer ℝ} {t : ℝ} (h : Smooth (driven d' l) t) (hd : ContDiffAt ℝ 4 d.value t) : Smooth (driven d l) t :=
  ⟨h.iecTop, h.iecBottom, h.quadTop, h.quadBottom, hd, h.anisotropy, h.fieldLike, h.dampingLike, h.idmiTop, h.idmiBottom, h.reserved,
    h.external, h.oersted, h.dmi⟩

/-- the equations of a member are smooth in its state and in the factor of the current -/
theorem driven_smooth {d : ScalarDriver ℝ} (hk : SmoothKind d) (ph : ℝ) {m : Nat} (L : Fin m → Layer ℝ) (p : X m × ℝ)
    (hd : ∀ x, ContDiffAt ℝ 4 (scaled d x ph).value p.1.1) (hl : ∀ k, Smooth (driven d (L k)) p.1.1)
    (hn : ∀ k, NoPole (L k) (ofV (p.1.2 k)) (low p.1.2 k) (up p.1.2 k)) :
    ContDiffAt ℝ 4 (lifted fun (w : ℝ) k => driven (scaled d w ph) (L k)) p := by
  have hp : ∀ k : Fin m, CD (fun q : X m × ℝ => ofV (q.1.2 k)) p := fun k =>
    CD.ofV ((contDiffAt_pi.1 (contDiffAt_snd.comp p contDiffAt_fst)) k)
  have hτ : ContDiffAt ℝ 4 (fun q : X m × ℝ => q.1.1) p := contDiffAt_fst.comp p contDiffAt_fst
  have hw : ContDiffAt ℝ 4 (fun q : X m × ℝ => q.2) p := contDiffAt_snd
  refine (contDiffAt_const.prodMk (contDiffAt_pi.2 fun k => CD.toV ?_)).prodMk contDiffAt_const
  have hlow : CD (fun q : X m × ℝ => low q.1.2 k) p := by
    unfold low
    split
    · exact hp _
    · exact CD.const _
  have hup : CD (fun q : X m × ℝ => up q.1.2 k) p := by
    unfold up
    split
    · exact hp _
    · exact CD.const _
  have hx : ∀ x, CD (fun q : X m × ℝ => motion (driven (scaled d x ph) (L k)) q.1.1 (ofV (q.1.2 k)) (low q.1.2 k) (up q.1.2 k)) p :=
    fun x => CD.motion (l := driven (scaled d x ph) (L k)) (smooth_driven (hl k) (hd x)) hτ (hp k) hlow hup (hn k)
  have e : (fun q : X m × ℝ => motion (driven (scaled d q.2 ph) (L k)) q.1.1 (ofV (q.1.2 k)) (low q.1.2 k) (up q.1.2 k)) =
      fun q => motion (driven (scaled d 0 ph) (L k)) q.1.1 (ofV (q.1.2 k)) (low q.1.2 k) (up q.1.2 k) +
        smul q.2 (motion (driven (scaled d 1 ph) (L k)) q.1.1 (ofV (q.1.2 k)) (low q.1.2 k) (up q.1.2 k) -
          motion (driven (scaled d 0 ph) (L k)) q.1.1 (ofV (q.1.2 k)) (low q.1.2 k) (up q.1.2 k)) :=
    funext fun q => motion_current hk _ _ _ _ _ _ _
  show CD (fun q : X m × ℝ => motion (driven (scaled d q.2 ph) (L k)) q.1.1 (ofV (q.1.2 k)) (low q.1.2 k) (up q.1.2 k)) p
  rw [e]
  exact (hx 0).add' (CD.smul hw ((hx 1).sub (hx 0)))

section
variable {E : Type*} [NormedAddCommGroup E] [NormedSpace ℝ E] {z : E} {f g p : E → CVec ℝ}

theorem alignment_smooth (κ : StackKind) (hf : CD f z) (hg : CD g z) (hp : CD p z) :
    ContDiffAt ℝ 4 (fun q => alignment κ (f q) (g q) (p q)) z := by
  obtain ⟨a, b, d⟩ := hf
  obtain ⟨a', b', d'⟩ := hg
  obtain ⟨u, v, w⟩ := hp
  cases κ
  · exact (((a.mul u).add (b.mul v)).add (d.mul w)).add (((a'.mul u).add (b'.mul v)).add (d'.mul w))
  · exact (((a.mul u).add (b.mul v)).add (d.mul w)).sub (((a'.mul u).add (b'.mul v)).add (d'.mul w))

theorem factor_smooth (s : Stack ℝ) (top bot : Nat → Nat) {m : E → Nat → Nat → CVec ℝ} (hm : ∀ k p, CD (fun q => m q k p) z) (i : Nat) :
    ContDiffAt ℝ 4 (fun q => stackFactor s top bot (m q) i) z := by
  unfold stackFactor currentFactor
  refine contDiffAt_prod fun k _ => contDiffAt_const.add (contDiffAt_const.mul (alignment_smooth s.kind (hm _ _) (hm _ _) ?_))
  split
  · exact hm _ _
  · exact CD.const _

end

section
variable {N : Nat} {n : Fin N → Nat}

/-- the factors when the members are stepped one after the other -/
noncomputable def running (P : ∀ i : Fin N, ℝ → Fin (n i) → Layer ℝ) (s : Stack ℝ) (top bot : Nat → Nat) : Nat → Y n × ℝ → ℝ
  | 0, _ => 1
  | k + 1, q => running P s top bot k q * (1 + gap s k * alignment s.kind (nextMag P k (top k) (running P s top bot k q) q)
      (magAt q.1.2 (k + 1) (top (k + 1))) (nextMag P k (bot k) (running P s top bot k q) q))

/-- the factors on the currents in a step -/
noncomputable def factor (P : ∀ i : Fin N, ℝ → Fin (n i) → Layer ℝ) (s : Stack ℝ) (top bot : Nat → Nat) (i : Fin N) (q : Y n × ℝ) : ℝ :=
  if s.delayed = true then stackFactor s top bot (magAt q.1.2) i.1 else running P s top bot i.1 q

variable {P : ∀ i : Fin N, ℝ → Fin (n i) → Layer ℝ} {s : Stack ℝ} {top bot : Nat → Nat} {z : Y n}

theorem magAt_fst (k p : Nat) (z : Y n) : CD (fun q : Y n × ℝ => magAt q.1.2 k p) (z, 0) := by
  unfold magAt
  split
  · exact CD.ofV ((contDiffAt_pi.1 ((contDiffAt_pi.1 (contDiffAt_snd.comp (z, (0 : ℝ)) contDiffAt_fst)) _)) _)
  · exact CD.const _

theorem running_smooth (hz : z ∈ UnitAll n) (hP : ∀ i w, ContDiffAt ℝ 4 (lifted (P i)) (sub i z, w)) (k : Nat) :
    ContDiffAt ℝ 4 (running P s top bot k) (z, 0) := by
  induction k with
  | zero => exact contDiffAt_const
  | succ k ih =>
    refine ih.mul (contDiffAt_const.add (contDiffAt_const.mul (alignment_smooth s.kind ?_ (magAt_fst _ _ z) ?_)))
    · exact nextMag_smooth hz ih (fun i => hP i _) _ _
    · exact nextMag_smooth hz ih (fun i => hP i _) _ _

theorem running_zero (hz : z ∈ UnitAll n) (h2 : TwoLayers s) (k : Nat) : running P s top bot k (z, 0) = stackFactor s top bot (magAt z.2) k := by
  induction k with
  | zero => simp [running, stackFactor, currentFactor]
  | succ k ih =>
    have : stackFactor s top bot (magAt z.2) (k + 1) = stackFactor s top bot (magAt z.2) k *
        (1 + gap s k * alignment s.kind (magAt z.2 k (top k)) (magAt z.2 (k + 1) (top (k + 1))) (magAt z.2 k (bot k))) := by
      unfold stackFactor currentFactor
      rw [Finset.prod_range_succ]
      simp only [if_pos h2]
    rw [this, ← ih]
    show running P s top bot k (z, 0) * (1 + gap s k * alignment s.kind (nextMag P k (top k) (running P s top bot k (z, 0)) (z, 0))
      (magAt z.2 (k + 1) (top (k + 1))) (nextMag P k (bot k) (running P s top bot k (z, 0)) (z, 0))) = _
    rw [nextMag_zero hz, nextMag_zero hz]

theorem factor_at (hz : z ∈ UnitAll n) (h2 : s.delayed = false → TwoLayers s) (i : Fin N) :
    factor P s top bot i (z, 0) = stackFactor s top bot (magAt z.2) i.1 := by
  unfold factor
  split
  · rfl
  · exact running_zero hz (h2 (by simpa using ‹¬ s.delayed = true›)) _

theorem factors_smooth (hz : z ∈ UnitAll n) (hP : ∀ i w, ContDiffAt ℝ 4 (lifted (P i)) (sub i z, w)) (i : Fin N) :
    ContDiffAt ℝ 4 (factor P s top bot i) (z, 0) := by
  unfold factor
  split
  · exact factor_smooth s top bot (fun k p => magAt_fst k p z) i.1
  · exact running_smooth hz hP _

end

end Order
