import Verif.Lemmas.Ensemble
import Verif.Spec.MotionGroup

/-! The coupled equations of motion of a group, in the form needed for the convergence of joint steps. -/

set_option linter.unusedSectionVars false
set_option linter.unusedSimpArgs false
set_option maxSynthPendingDepth 4

namespace Order
open Spec Junction

section
variable {E : Type*} [NormedAddCommGroup E] [NormedSpace ℝ E] {f g : E → CVec ℝ} {z : E}

theorem CD.add' (hf : CD f z) (hg : CD g z) : CD (fun w => f w + g w) z :=
  ⟨hf.1.add hg.1, hf.2.1.add hg.2.1, hf.2.2.add hg.2.2⟩

theorem CD.vsum {s : Finset Nat} {F : Nat → E → CVec ℝ} (h : ∀ k ∈ s, CD (F k) z) : CD (fun w => Spec.vsum s fun k => F k w) z :=
  ⟨ContDiffAt.sum fun k hk => (h k hk).1, ContDiffAt.sum fun k hk => (h k hk).2.1, ContDiffAt.sum fun k hk => (h k hk).2.2⟩

theorem CD.pointDipole (hf : CD f z) (r : CVec ℝ) : CD (fun w => Spec.pointDipole (f w) r) z := by
  obtain ⟨a, b, d⟩ := hf
  have s : ContDiffAt ℝ 4 (fun w => 3 * ((f w).x * r.x + (f w).y * r.y + (f w).z * r.z)) z :=
    contDiffAt_const.mul (((a.mul contDiffAt_const).add (b.mul contDiffAt_const)).add (d.mul contDiffAt_const))
  exact CD.smul contDiffAt_const
    ⟨((s.mul contDiffAt_const).div_const _).sub (a.div_const _), ((s.mul contDiffAt_const).div_const _).sub (b.div_const _),
      ((s.mul contDiffAt_const).div_const _).sub (d.div_const _)⟩

theorem ofVec_value (w : CVec ℝ) (t : ℝ) : (AxialDriver.ofVec w).value t = w := by
  ext <;> simp [AxialDriver.ofVec, AxialDriver.value, ScalarDriver.value, ScalarDriver.constantDriver]

theorem field_exposed (l : Layer ℝ) (w : CVec ℝ) (t : ℝ) (m b a : CVec ℝ) :
    field { l with HreservedDriver := .ofVec w } t m b a = field { l with HreservedDriver := .ofVec ⟨0, 0, 0⟩ } t m b a + w := by
  unfold field Layer.heffSpec
  simp only [ofVec_value]
  ext <;> simp <;> ring

theorem smooth_exposed {l : Layer ℝ} {t : ℝ} (h : Smooth l t) (w : CVec ℝ) : Smooth { l with HreservedDriver := .ofVec w } t :=
  ⟨h.iecTop, h.iecBottom, h.quadTop, h.quadBottom, h.current, h.anisotropy, h.fieldLike, h.dampingLike, h.idmiTop, h.idmiBottom,
    by simp only [SmoothVec, ofVec_value]; exact ⟨contDiffAt_const, contDiffAt_const, contDiffAt_const⟩,
    h.external, h.oersted, h.dmi⟩

theorem cd_exposed {id : String} {l : Layer ℝ} {τ : E → ℝ} {w m b a : E → CVec ℝ} (hl : Smooth l (τ z)) (hτ : ContDiffAt ℝ 4 τ z)
    (hw : CD w z) (hm : CD m z) (hb : CD b z) (ha : CD a z) (hn : NoPole l (m z) (b z) (a z)) :
    CD (fun p => motion (exposed id (w p) l) (τ p) (m p) (b p) (a p)) z := by
  unfold Spec.exposed
  by_cases h : Addressed id l
  · simp only [if_pos h]
    have hH : CD (fun p => field { l with HreservedDriver := .ofVec (w p) } (τ p) (m p) (b p) (a p)) z := by
      have e : (fun p => field { l with HreservedDriver := .ofVec (w p) } (τ p) (m p) (b p) (a p)) =
          fun p => field { l with HreservedDriver := .ofVec ⟨0, 0, 0⟩ } (τ p) (m p) (b p) (a p) + w p := funext fun p => field_exposed l _ _ _ _ _
      rw [e]
      exact (CD.field (smooth_exposed hl _) hτ hm hb ha).add' hw
    have hS := CD.spinTorque hl hτ hm (CD.polariser (l := l) hb ha) hn
    exact CD.smul (c := fun _ => 220880 / (1 + l.damping ^ 2)) contDiffAt_const ((hS.sub (hm.cross hH)).sub
      (CD.smul (c := fun _ => l.damping) contDiffAt_const (hm.cross (hm.cross hH))))
  · simp only [if_neg h]
    exact CD.motion hl hτ hm hb ha hn

end

/-- the equations of a member are smooth in its state and in the coupling -/
theorem lifted_smooth (id : String) {m : Nat} (L : Fin m → Layer ℝ) (p : X m × V) (hl : ∀ k, Smooth (L k) p.1.1)
    (hn : ∀ k, NoPole (L k) (ofV (p.1.2 k)) (low p.1.2 k) (up p.1.2 k)) :
    ContDiffAt ℝ 4 (lifted fun (w : V) k => exposed id (ofV w) (L k)) p := by
  have hp : ∀ k : Fin m, CD (fun q : X m × V => ofV (q.1.2 k)) p := fun k =>
    CD.ofV ((contDiffAt_pi.1 (contDiffAt_snd.comp p contDiffAt_fst)) k)
  have hw : CD (fun q : X m × V => ofV q.2) p := CD.ofV contDiffAt_snd
  refine (contDiffAt_const.prodMk (contDiffAt_pi.2 fun k => CD.toV (cd_exposed (τ := fun q : X m × V => q.1.1)
    (b := fun q : X m × V => low q.1.2 k) (a := fun q : X m × V => up q.1.2 k) (hl k) (contDiffAt_fst.comp p contDiffAt_fst) hw (hp k)
    ?_ ?_ (hn k)))).prodMk contDiffAt_const
  · unfold low
    split
    · exact hp _
    · exact CD.const _
  · unfold up
    split
    · exact hp _
    · exact CD.const _

/-- magnetisation of layer `p` of member `k` -/
noncomputable def magAt {N : Nat} {n : Fin N → Nat} (M : ∀ i, Fin (n i) → V) (k p : Nat) : CVec ℝ :=
  if h : ∃ hk : k < N, p < n ⟨k, hk⟩ then ofV (M ⟨k, h.1⟩ ⟨p, h.2⟩) else ⟨0, 0, 0⟩

theorem magAt_eq {N : Nat} {n : Fin N → Nat} (M : ∀ i, Fin (n i) → V) (i : Fin N) (k : Fin (n i)) : magAt M i.1 k.1 = ofV (M i k) :=
  dif_pos ⟨i.2, k.2⟩

/-- the field at member `i` -/
noncomputable def coupling {N : Nat} {n : Fin N → Nat} (c : ℝ) (R : Nat → CVec ℝ) (top : Nat → Nat) (src : Nat → Layer ℝ) (i : Fin N)
    (z : Y n) : V := toV (groupField c N R top src (magAt z.2) i.1)

theorem magAt_smooth {N : Nat} {n : Fin N → Nat} (k p : Nat) (z : Y n) : CD (fun w : Y n => magAt w.2 k p) z := by
  unfold magAt
  split
  · exact CD.ofV ((contDiffAt_pi.1 ((contDiffAt_pi.1 contDiffAt_snd) _)) _)
  · exact CD.const _

theorem coupling_smooth {N : Nat} {n : Fin N → Nat} (c : ℝ) (R : Nat → CVec ℝ) (top : Nat → Nat) (src : Nat → Layer ℝ) (i : Fin N)
    (z : Y n) : ContDiffAt ℝ 4 (coupling c R top src i) z := by
  have h1 : ∀ k, CD (fun w : Y n => moment ((src k).setMag (magAt w.2 k (top k)))) z := fun k =>
    CD.smul (c := fun _ => (src k).Ms / (1257 / 10 ^ 9) * ((src k).thickness * (src k).cellSurface)) contDiffAt_const (magAt_smooth k (top k) z)
  have h2 := CD.vsum (s := (Finset.range N).erase i.1) fun k _ => (h1 k).pointDipole (R i.1 - R k)
  exact CD.toV (CD.smul (c := fun _ => c) contDiffAt_const h2)

/-- a solution keeps its length, even if the layer changes in time -/
theorem length_steady {l : ℝ → Layer ℝ} {c b a : ℝ → CVec ℝ} {lo hi : ℝ} (h0 : (0 : ℝ) ∈ Set.Ioo lo hi)
    (hm : ∀ t ∈ Set.Ioo lo hi, Slope c (motion (l t) t (c t) (b t) (a t)) t) (t : ℝ) (ht : t ∈ Set.Ioo lo hi) :
    (c t).length = (c 0).length := by
  rw [CVec.length_eq, CVec.length_eq]
  congr 1
  have hd : ∀ s ∈ Set.Ioo lo hi, HasDerivWithinAt (fun s => (c s).normSq) 0 (Set.Ioo lo hi) s := by
    intro s hs
    obtain ⟨h1, h2, h3⟩ := hm s hs
    have q := ((h1.pow 2).add (h2.pow 2)).add (h3.pow 2)
    refine HasDerivAt.hasDerivWithinAt (q.congr_deriv ?_)
    have := motion_dot (l s) s (c s) (b s) (a s)
    norm_num
    linear_combination 2 * this
  have := (convex_Ioo lo hi).norm_image_sub_le_of_norm_hasDerivWithin_le (C := 0) hd (by simp) h0 ht
  simpa [sub_eq_zero] using this

end Order
