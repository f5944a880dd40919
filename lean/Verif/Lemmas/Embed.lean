import Verif.Lemmas.Converge
import Verif.Spec.Motion
import Mathlib.Analysis.InnerProductSpace.PiL2
import Mathlib.Analysis.InnerProductSpace.Calculus

/-! The coupled equations of motion as one smooth autonomous equation on `ℝ × (Fin n → ℝ³)` (time and magnetisations). -/

set_option linter.unusedSectionVars false
set_option linter.unusedSimpArgs false
set_option maxSynthPendingDepth 4

namespace Order
open Spec

abbrev V := EuclideanSpace ℝ (Fin 3)
abbrev X (n : Nat) := ℝ × (Fin n → V)

noncomputable def toV (v : CVec ℝ) : V := !₂[v.x, v.y, v.z]
noncomputable def ofV (v : V) : CVec ℝ := ⟨v 0, v 1, v 2⟩

@[simp] theorem toV_0 (v : CVec ℝ) : toV v 0 = v.x := rfl
@[simp] theorem toV_1 (v : CVec ℝ) : toV v 1 = v.y := rfl
@[simp] theorem toV_2 (v : CVec ℝ) : toV v 2 = v.z := rfl
@[simp] theorem ofV_x (v : V) : (ofV v).x = v 0 := rfl
@[simp] theorem ofV_y (v : V) : (ofV v).y = v 1 := rfl
@[simp] theorem ofV_z (v : V) : (ofV v).z = v 2 := rfl
@[simp] theorem ofV_toV (v : CVec ℝ) : ofV (toV v) = v := rfl
theorem V.ext {u v : V} (h0 : u 0 = v 0) (h1 : u 1 = v 1) (h2 : u 2 = v 2) : u = v := by
  ext i; fin_cases i <;> assumption
@[simp] theorem toV_ofV (v : V) : toV (ofV v) = v := V.ext rfl rfl rfl

theorem norm_toV (v : CVec ℝ) : ‖toV v‖ = v.length := by
  rw [EuclideanSpace.norm_eq, CVec.length_eq]
  simp [Fin.sum_univ_three, CVec.normSq]

theorem toV_sub (u v : CVec ℝ) : toV (u - v) = toV u - toV v := V.ext (by simp) (by simp) (by simp)

/-! ### Neighbours -/

noncomputable def low {n : Nat} (M : Fin n → V) (i : Fin n) : CVec ℝ :=
  if h : 0 < i.1 then ofV (M ⟨i.1 - 1, by omega⟩) else ⟨0, 0, 0⟩
noncomputable def up {n : Nat} (M : Fin n → V) (i : Fin n) : CVec ℝ :=
  if h : i.1 + 1 < n then ofV (M ⟨i.1 + 1, h⟩) else ⟨0, 0, 0⟩

/-- right-hand side of the joint equation -/
noncomputable def rhs {n : Nat} (L : Fin n → Layer ℝ) (z : X n) : X n :=
  (1, fun i => toV (motion (L i) z.1 (ofV (z.2 i)) (low z.2 i) (up z.2 i)))

/-! ### Smoothness -/

section
variable {E : Type*} [NormedAddCommGroup E] [NormedSpace ℝ E]

/-- smooth vector-valued function -/
def CD (f : E → CVec ℝ) (z : E) : Prop :=
  ContDiffAt ℝ 4 (fun w => (f w).x) z ∧ ContDiffAt ℝ 4 (fun w => (f w).y) z ∧ ContDiffAt ℝ 4 (fun w => (f w).z) z

variable {f g : E → CVec ℝ} {c : E → ℝ} {z : E}

theorem CD.const (v : CVec ℝ) : CD (fun _ : E => v) z := ⟨contDiffAt_const, contDiffAt_const, contDiffAt_const⟩
theorem CD.sub (hf : CD f z) (hg : CD g z) : CD (fun w => f w - g w) z :=
  ⟨hf.1.sub hg.1, hf.2.1.sub hg.2.1, hf.2.2.sub hg.2.2⟩
theorem CD.smul (hc : ContDiffAt ℝ 4 c z) (hf : CD f z) : CD (fun w => Spec.smul (c w) (f w)) z :=
  ⟨hc.mul hf.1, hc.mul hf.2.1, hc.mul hf.2.2⟩
theorem CD.cross (hf : CD f z) (hg : CD g z) : CD (fun w => (f w).cross (g w)) z := by
  obtain ⟨a, b, d⟩ := hf
  obtain ⟨a', b', d'⟩ := hg
  exact ⟨(b.mul d').sub (d.mul b'), (d.mul a').sub (a.mul d'), (a.mul b').sub (b.mul a')⟩
theorem CD.dot (hf : CD f z) (hg : CD g z) : ContDiffAt ℝ 4 (fun w => (f w).dot (g w)) z := by
  obtain ⟨a, b, d⟩ := hf
  obtain ⟨a', b', d'⟩ := hg
  exact ((a.mul a').add (b.mul b')).add (d.mul d')

theorem CD.comp_time {d : ℝ → CVec ℝ} {τ : E → ℝ} (hd : SmoothVec d (τ z)) (hτ : ContDiffAt ℝ 4 τ z) :
    CD (fun w => d (τ w)) z := ⟨hd.1.comp z hτ, hd.2.1.comp z hτ, hd.2.2.comp z hτ⟩

theorem CD.field {l : Layer ℝ} {τ : E → ℝ} {m b a : E → CVec ℝ} (hl : Smooth l (τ z)) (hτ : ContDiffAt ℝ 4 τ z)
    (hm : CD m z) (hb : CD b z) (ha : CD a z) : CD (fun w => field l (τ w) (m w) (b w) (a w)) z := by
  have e1 := CD.comp_time hl.external hτ
  have e2 := CD.comp_time hl.oersted hτ
  have e3 := CD.comp_time hl.dmi hτ
  have e4 := CD.comp_time hl.reserved hτ
  have s1 := hl.iecTop.comp z hτ
  have s2 := hl.iecBottom.comp z hτ
  have s3 := hl.quadTop.comp z hτ
  have s4 := hl.quadBottom.comp z hτ
  have s5 := hl.anisotropy.comp z hτ
  have i1 := CD.comp_time hl.idmiTop hτ
  have i2 := CD.comp_time hl.idmiBottom hτ
  have an : CD (fun w => anisField l.anis l.Ms (l.anisotropyDriver.value (τ w)) (m w)) z :=
    CD.smul (((contDiffAt_const.mul s5).div_const _).mul (CD.dot (CD.const l.anis) hm)) (CD.const l.anis)
  have ex : ∀ {J Q : E → ℝ} {v : E → CVec ℝ}, ContDiffAt ℝ 4 J z → ContDiffAt ℝ 4 Q z → CD v z →
      CD (fun w => exchangeField l.Ms l.thickness (J w) (Q w) (m w) (v w)) z := fun hJ hQ hv =>
    CD.smul ((hJ.add ((contDiffAt_const.mul hQ).mul (CD.dot hv hm))).div_const _) hv
  have im : ∀ {D v : E → CVec ℝ}, CD D z → CD v z → CD (fun w => idmiField l.Ms l.thickness (D w) (v w)) z :=
    fun hD hv => CD.smul contDiffAt_const (CD.cross hv hD)
  have te : ∀ {N : Tensor ℝ} {v : E → CVec ℝ}, CD v z → CD (fun w => tensorField N l.Ms (v w)) z := fun {N v} hv =>
    ⟨contDiffAt_const.mul (CD.dot (CD.const N.r0) hv), contDiffAt_const.mul (CD.dot (CD.const N.r1) hv),
      contDiffAt_const.mul (CD.dot (CD.const N.r2) hv)⟩
  have x1 := ex s2 s4 hb
  have x2 := ex s1 s3 ha
  have d1 := im i2 hb
  have d2 := im i1 ha
  have t1 := te (N := l.demagTensor) hm
  have t2 := te (N := l.dipoleBottom) hb
  have t3 := te (N := l.dipoleTop) ha
  refine ⟨?_, ?_, ?_⟩
  · exact (((((((((e1.1.add an.1).add x1.1).add x2.1).add d1.1).add d2.1).add e2.1).add e3.1).add contDiffAt_const).add
      e4.1).sub t1.1 |>.sub (t2.1.add t3.1)
  · exact (((((((((e1.2.1.add an.2.1).add x1.2.1).add x2.2.1).add d1.2.1).add d2.2.1).add e2.2.1).add e3.2.1).add
      contDiffAt_const).add e4.2.1).sub t1.2.1 |>.sub (t2.2.1.add t3.2.1)
  · exact (((((((((e1.2.2.add an.2.2).add x1.2.2).add x2.2.2).add d1.2.2).add d2.2.2).add e2.2.2).add e3.2.2).add
      contDiffAt_const).add e4.2.2).sub t1.2.2 |>.sub (t2.2.2.add t3.2.2)

theorem CD.polariser {l : Layer ℝ} {b a : E → CVec ℝ} (hb : CD b z) (ha : CD a z) :
    CD (fun w => Layer.polariser l (b w) (a w)) z := by
  unfold Layer.polariser
  split
  · exact CD.const _
  · split
    · exact ha
    · split
      · exact hb
      · exact CD.const _

theorem CD.spinTorque {l : Layer ℝ} {τ : E → ℝ} {m p : E → CVec ℝ} (hl : Smooth l (τ z)) (hτ : ContDiffAt ℝ 4 τ z)
    (hm : CD m z) (hp : CD p z) (hn : l.includeSTT = true → sttDenominator l (m z) (p z) ≠ 0) :
    CD (fun w => spinTorque l (τ w) (m w) (p w)) z := by
  have s1 := hl.current.comp z hτ
  have s2 := hl.fieldLike.comp z hτ
  have s3 := hl.dampingLike.comp z hτ
  unfold Spec.spinTorque
  by_cases h1 : l.includeSTT = true
  · simp only [if_pos h1]
    have hamp : ContDiffAt ℝ 4 (fun w => sttAmplitude l (τ w)) z := (contDiffAt_const.mul s1).div_const _
    have hden : ContDiffAt ℝ 4 (fun w => sttDenominator l (m w) (p w)) z := by
      unfold sttDenominator
      split
      · exact contDiffAt_const.add (contDiffAt_const.mul (CD.dot hm hp))
      · exact contDiffAt_const.add (contDiffAt_const.mul (CD.dot hm hp))
    have heff : ContDiffAt ℝ 4 (fun w => sttEfficiency l (m w) (p w)) z := contDiffAt_const.div hden (hn h1)
    exact (CD.smul ((hamp.mul heff).mul contDiffAt_const) (hm.cross hp)).sub
      (CD.smul ((hamp.mul heff).mul contDiffAt_const) (hm.cross (hm.cross hp)))
  · simp only [if_neg h1]
    by_cases h2 : l.includeSOT = true
    · simp only [if_pos h2]
      have hs : ContDiffAt ℝ 4 (fun w => (Layer.sotFields l (τ w)).1) z ∧ ContDiffAt ℝ 4 (fun w => (Layer.sotFields l (τ w)).2) z := by
        unfold Layer.sotFields
        by_cases h3 : l.dynamicSOT = true
        · simp only [if_pos h3]; exact ⟨s2, s3⟩
        · simp only [if_neg h3]; exact ⟨contDiffAt_const.mul s1, contDiffAt_const.mul s1⟩
      exact ((CD.const _).sub (CD.smul (hs.1.sub (contDiffAt_const.mul hs.2)) (hm.cross hp))).sub
        (CD.smul (hs.2.add (contDiffAt_const.mul hs.1)) (hm.cross (hm.cross hp)))
    · simp only [if_neg h2]
      exact CD.const _

theorem CD.motion {l : Layer ℝ} {τ : E → ℝ} {m b a : E → CVec ℝ} (hl : Smooth l (τ z)) (hτ : ContDiffAt ℝ 4 τ z)
    (hm : CD m z) (hb : CD b z) (ha : CD a z) (hn : NoPole l (m z) (b z) (a z)) :
    CD (fun w => motion l (τ w) (m w) (b w) (a w)) z := by
  have hH := CD.field hl hτ hm hb ha
  have hS := CD.spinTorque hl hτ hm (CD.polariser (l := l) hb ha) hn
  exact CD.smul contDiffAt_const ((hS.sub (hm.cross hH)).sub (CD.smul contDiffAt_const (hm.cross (hm.cross hH))))

theorem CD.toV (hf : CD f z) : ContDiffAt ℝ 4 (fun w => toV (f w)) z := by
  rw [contDiffAt_euclidean]
  intro i
  fin_cases i
  · exact hf.1
  · exact hf.2.1
  · exact hf.2.2

theorem CD.ofV {v : E → V} (hv : ContDiffAt ℝ 4 v z) : CD (fun w => ofV (v w)) z := by
  rw [contDiffAt_euclidean] at hv
  exact ⟨hv 0, hv 1, hv 2⟩

end

theorem rhs_smooth {n : Nat} (L : Fin n → Layer ℝ) (z : X n) (hl : ∀ i, Smooth (L i) z.1)
    (hn : ∀ i, NoPole (L i) (ofV (z.2 i)) (low z.2 i) (up z.2 i)) : ContDiffAt ℝ 4 (rhs L) z := by
  have hp : ∀ i : Fin n, CD (fun w : X n => ofV (w.2 i)) z := fun i =>
    CD.ofV ((contDiffAt_pi.1 contDiffAt_snd) i)
  refine contDiffAt_const.prodMk (contDiffAt_pi.2 fun i => CD.toV (CD.motion (hl i) contDiffAt_fst (hp i) ?_ ?_ (hn i)))
  · unfold low
    split
    · exact hp _
    · exact CD.const _
  · unfold up
    split
    · exact hp _
    · exact CD.const _

end Order
