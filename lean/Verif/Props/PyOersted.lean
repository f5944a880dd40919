import Verif.Model.PyOersted
import Verif.Spec.PyOersted
import Mathlib.Algebra.BigOperators.Fin
import Mathlib.Algebra.BigOperators.Intervals

set_option linter.unusedSectionVars false

/-!
C58 (region currents and fields), C73 (block centres), C74 (region contributions) of `cmtj/models/oersted.py`.
-/

open Spec

namespace Oersted

/-- The field of block `o` at block `b`. -/
noncomputable abbrev pull (b o : Block ℝ) : ℝ := wireField o.I (planeDist b.x b.y o.x o.y)

/-- Two blocks lie at different places in the plane. -/
def Apart (b o : Block ℝ) : Prop := (b.x, b.y) ≠ (o.x, o.y)

theorem planeDist_pos {b o : Block ℝ} (h : Apart b o) : 0 < planeDist b.x b.y o.x o.y := by
  unfold planeDist
  apply Real.sqrt_pos.2
  rcases eq_or_ne b.x o.x with hx | hx
  · have hy : b.y - o.y ≠ 0 := fun e => h (by rw [hx, sub_eq_zero.1 e])
    positivity
  · have hx' : b.x - o.x ≠ 0 := sub_ne_zero.2 hx
    positivity

theorem planeDist_zero {b o : Block ℝ} (h : ¬ Apart b o) : planeDist b.x b.y o.x o.y = 0 := by
  unfold Apart at h
  push Not at h
  obtain ⟨hx, hy⟩ := Prod.mk.inj h
  simp [planeDist, hx, hy]

theorem Apart.symm {b o : Block ℝ} (h : Apart b o) : Apart o b := Ne.symm h

theorem ampere_eq (b o : Block ℝ) : b.ampere o = if planeDist b.x b.y o.x o.y = 0 then .error .zeroDivision else .ok (pull b o) := by
  unfold Block.ampere ampereLaw distance pull wireField planeDist
  simp only [Scalar.powi_real, Scalar.sqrt_real, Scalar.pi_real, Scalar.eqb_real, Scalar.ofNat_real, decide_eq_true_eq]
  norm_num
  split
  · rfl
  · congr 2; ring

theorem ampere_ok {b o : Block ℝ} (h : Apart b o) : b.ampere o = .ok (pull b o) := by
  rw [ampere_eq, if_neg (planeDist_pos h).ne']

theorem ampere_err {b o : Block ℝ} (h : ¬ Apart b o) : b.ampere o = .error .zeroDivision := by
  rw [ampere_eq, if_pos (planeDist_zero h)]

/-- One block against the rest. -/
theorem interact_ok {b : Block ℝ} {os : List (Block ℝ)} (h : ∀ o ∈ os, Apart b o) :
    interact b os = .ok ({ b with Hlocal := b.Hlocal + (os.map (pull b)).sum },
      os.map fun o => { o with Hlocal := o.Hlocal + pull o b }) := by
  induction os generalizing b with
  | nil => simp [interact]
  | cons o os ih =>
    have ho : Apart b o := h o (by simp)
    unfold interact
    rw [ampere_ok ho, ampere_ok ho.symm]
    simp only [bind, Except.bind]
    rw [ih (b := { b with Hlocal := b.Hlocal + pull b o }) (fun p hp => h p (by simp [hp]))]
    simp only [List.map_cons, List.sum_cons, add_assoc]

theorem interact_err {b : Block ℝ} {os : List (Block ℝ)} (h : ∃ o ∈ os, ¬ Apart b o) :
    interact b os = .error .zeroDivision := by
  induction os generalizing b with
  | nil => simp at h
  | cons o os ih =>
    unfold interact
    by_cases ho : Apart b o
    · rw [ampere_ok ho, ampere_ok ho.symm]
      simp only [bind, Except.bind]
      rw [ih (b := { b with Hlocal := b.Hlocal + pull b o })]
      obtain ⟨p, hp, hb⟩ := h
      rcases List.mem_cons.1 hp with rfl | hp
      · exact absurd ho hb
      · exact ⟨p, hp, hb⟩
    · rw [ampere_err ho]; rfl

/-- The whole double loop. -/
theorem computeLoop_spec (n : ℕ) (bs : List (Block ℝ)) (hn : bs.length ≤ n) :
    (bs.Pairwise Apart → ∃ out, computeLoop n bs = .ok out ∧ out.length = bs.length ∧
      ∀ (i : ℕ) (hi : i < bs.length), out[i]? = some { bs[i] with
        Hlocal := bs[i].Hlocal + ∑ j : Fin bs.length, if (j : ℕ) = i then 0 else pull bs[i] bs[j] }) ∧
    (¬ bs.Pairwise Apart → computeLoop n bs = .error .zeroDivision) := by
  induction n generalizing bs with
  | zero =>
    have : bs = [] := List.length_eq_zero_iff.1 (by omega)
    subst this
    exact ⟨fun _ => ⟨[], by simp [computeLoop]⟩, fun h => absurd List.Pairwise.nil h⟩
  | succ n ih =>
    cases bs with
    | nil => exact ⟨fun _ => ⟨[], by simp [computeLoop]⟩, fun h => absurd List.Pairwise.nil h⟩
    | cons b bs =>
      have hlen : bs.length ≤ n := by simpa using hn
      let f : Block ℝ → Block ℝ := fun o => { o with Hlocal := o.Hlocal + pull o b }
      have hpair : (bs.map f).Pairwise Apart ↔ bs.Pairwise Apart := by
        rw [List.pairwise_map]; rfl
      obtain ⟨ih1, ih2⟩ := ih (bs.map f) (by simpa using hlen)
      rw [List.pairwise_cons]
      by_cases hb : ∀ o ∈ bs, Apart b o
      · have hi := interact_ok hb
        constructor
        · rintro ⟨-, hp⟩
          obtain ⟨out, ho, hol, hoi⟩ := ih1 (hpair.2 hp)
          refine ⟨_, by unfold computeLoop; rw [hi]; simp only [bind, Except.bind]; rw [ho], by simp [hol], ?_⟩
          intro i hi
          cases i with
          | zero =>
            simp only [List.getElem?_cons_zero, List.getElem_cons_zero, Option.some.injEq]
            congr 2
            rw [show ∑ j : Fin (b :: bs).length, (if (j : ℕ) = 0 then 0 else pull b (b :: bs)[j])
              = ∑ j : Fin bs.length, pull b bs[j] from by
                rw [show (∑ j : Fin (b :: bs).length, (if (j : ℕ) = 0 then 0 else pull b (b :: bs)[j]))
                  = ∑ j : Fin (bs.length + 1), (if (j : ℕ) = 0 then 0 else pull b (b :: bs)[j]) from rfl,
                  Fin.sum_univ_succ]
                simp]
            rw [← List.sum_ofFn]
            congr 1
            apply List.ext_getElem <;> simp
          | succ i =>
            have hi' : i < bs.length := by simpa using hi
            simp only [List.getElem?_cons_succ, List.getElem_cons_succ]
            rw [hoi i (by simpa using hi')]
            simp only [List.getElem_map, Option.some.injEq, f]
            congr 1
            rw [show (∑ j : Fin (b :: bs).length, (if (j : ℕ) = i + 1 then 0 else pull bs[i] (b :: bs)[j]))
                  = ∑ j : Fin (bs.length + 1), (if (j : ℕ) = i + 1 then 0 else pull bs[i] (b :: bs)[j]) from rfl,
                  Fin.sum_univ_succ]
            rw [← add_assoc]
            congr 1
            refine Fintype.sum_equiv (finCongr (by simp)) _ _ fun j => ?_
            simp [pull]
        · intro h
          have h' : ¬ (bs.map f).Pairwise Apart := fun hp => h ⟨hb, hpair.1 hp⟩
          unfold computeLoop
          rw [hi]
          simp only [bind, Except.bind]
          rw [ih2 h']
      · push Not at hb
        refine ⟨fun h => absurd h.1 (by push Not; exact hb), fun _ => ?_⟩
        unfold computeLoop
        rw [interact_err hb]
        rfl

/-- C58: computing the fields adds to every block the fields of all the other blocks, each an infinite wire at the distance of the
two centres, and changes nothing else. This needs all blocks at different places, and otherwise fails with a division by zero. -/
theorem C58_field (s : Structure ℝ) :
    (s.blocks.Pairwise Apart → ∃ bs, s.computeBlocks = .ok { s with blocks := bs } ∧ bs.length = s.blocks.length ∧
      ∀ (i : ℕ) (hi : i < s.blocks.length), bs[i]? = some { s.blocks[i] with
        Hlocal := s.blocks[i].Hlocal + ∑ j : Fin s.blocks.length, if (j : ℕ) = i then 0 else
          wireField s.blocks[j].I (planeDist s.blocks[i].x s.blocks[i].y s.blocks[j].x s.blocks[j].y) }) ∧
    (¬ s.blocks.Pairwise Apart → s.computeBlocks = .error .zeroDivision) := by
  obtain ⟨h1, h2⟩ := computeLoop_spec s.blocks.length s.blocks le_rfl
  constructor
  · intro h
    obtain ⟨out, ho, hl, hi⟩ := h1 h
    exact ⟨out, by unfold Structure.computeBlocks; rw [ho], hl, hi⟩
  · intro h
    unfold Structure.computeBlocks
    rw [h2 h]

/-- The blocks of a structure are one for each cell, in the order of the array. -/
def IsGrid (s : Structure ℝ) : Prop :=
  s.blocks.map (fun b => (b.ix, b.iy, b.iz)) =
    (List.range s.Xsize).flatMap fun ix => (List.range s.Ysize).flatMap fun iy => (List.range s.Zsize).map fun iz => (ix, iy, iz)

theorem isGrid_reset (s : Structure ℝ) : IsGrid s.reset := by
  simp [IsGrid, Structure.reset, initBlocks, List.map_flatMap, Block.mk', Function.comp_def]

theorem IsGrid.of_map {s s' : Structure ℝ} (h : IsGrid s) (hx : s'.Xsize = s.Xsize) (hy : s'.Ysize = s.Ysize) (hz : s'.Zsize = s.Zsize)
    (hb : s'.blocks.map (fun b => (b.ix, b.iy, b.iz)) = s.blocks.map fun b => (b.ix, b.iy, b.iz)) : IsGrid s' := by
  unfold IsGrid at *
  rw [hb, h, hx, hy, hz]

/-- A sum over the cells of a grid. -/
theorem sum_grid {s : Structure ℝ} (h : IsGrid s) (f : ℕ → ℕ → ℕ → ℝ) :
    (s.blocks.map fun b => f b.ix b.iy b.iz).sum =
      ∑ x ∈ Finset.range s.Xsize, ∑ y ∈ Finset.range s.Ysize, ∑ z ∈ Finset.range s.Zsize, f x y z := by
  have h1 : (s.blocks.map fun b => f b.ix b.iy b.iz) = (s.blocks.map fun b => (b.ix, b.iy, b.iz)).map fun t => f t.1 t.2.1 t.2.2 := by
    simp [Function.comp_def]
  have hr : ∀ (n : ℕ) (g : ℕ → ℝ), ((List.range n).map g).sum = ∑ k ∈ Finset.range n, g k := fun n g => by
    induction n with
    | zero => simp
    | succ n ih => rw [List.range_succ, Finset.sum_range_succ, ← ih]; simp
  have hf : ∀ (n : ℕ) (g : ℕ → List ℝ), ((List.range n).flatMap g).sum = ∑ k ∈ Finset.range n, (g k).sum := fun n g => by
    induction n with
    | zero => simp
    | succ n ih => rw [List.range_succ, Finset.sum_range_succ, ← ih]; simp
  rw [h1, h]
  simp only [List.map_flatMap, List.map_map, hf, Function.comp_def, hr]

/-- C58: setting the current of a region gives every block of the region the same current and leaves every other block, and
everything else about the blocks of the region, as it was. -/
theorem C58_others (s s' : Structure ℝ) (I : ℝ) (lo : ℕ) (hi : Option ℕ) (h : s.setRegionIdx I lo hi = .ok s') :
    ∃ c : ℝ, s' = { s with blocks := s'.blocks } ∧ s'.blocks.length = s.blocks.length ∧
      ∀ (i : ℕ) (hi' : i < s.blocks.length),
        (lo ≤ s.blocks[i].iy → s.blocks[i].iy < hi.getD s.Ysize → s.blocks[i].iy < s.Ysize →
          s'.blocks[i]? = some { s.blocks[i] with I := c }) ∧
        (s.blocks[i].iy < lo ∨ hi.getD s.Ysize ≤ s.blocks[i].iy → s'.blocks[i]? = some s.blocks[i]) := by
  unfold Structure.setRegionIdx at h
  simp only at h
  split at h
  · cases h
  · simp only [Except.ok.injEq] at h
    subst h
    refine ⟨I / Scalar.lit ((s.Xsize * ((min (hi.getD s.Ysize + 1) s.Ysize : ℕ) - (lo : ℤ)) : ℤ) : ℚ), rfl, by simp,
      fun i hi' => ⟨fun h1 h2 h3 => ?_, fun h1 => ?_⟩⟩
    · simp only [List.getElem?_map, List.getElem?_eq_getElem hi', Option.map_some]
      rw [if_pos ⟨h1, lt_min h2 h3⟩]
    · simp only [List.getElem?_map, List.getElem?_eq_getElem hi', Option.map_some]
      rw [if_neg]
      rintro ⟨h2, h3⟩
      rcases h1 with h1 | h1
      · omega
      · exact absurd (lt_of_lt_of_le h3 (min_le_left _ _)) (by omega)

theorem setRegionIdx_grid {s s' : Structure ℝ} {I : ℝ} {lo : ℕ} {hi : Option ℕ} (hg : IsGrid s)
    (h : s.setRegionIdx I lo hi = .ok s') : IsGrid s' := by
  unfold Structure.setRegionIdx at h
  simp only at h
  split at h
  · cases h
  · simp only [Except.ok.injEq] at h
    subst h
    refine hg.of_map rfl rfl rfl ?_
    simp only [List.map_map]
    apply List.map_congr_left
    intro b _
    simp only [Function.comp]
    split <;> rfl

/-- The current flowing in the rows from `lo` up to, not including, `hi`. -/
noncomputable def rowCurrent (s : Structure ℝ) (lo hi : ℕ) : ℝ :=
  ((s.blocks.filter fun b => lo ≤ b.iy ∧ b.iy < hi).map Block.I).sum

/-- What `set_region_I_idx` puts into a region: the requested current times the ratio of the number of rows filled and the number of
rows divided by, and times the number of blocks in depth. -/
theorem rowCurrent_setRegion {s s' : Structure ℝ} {I : ℝ} {lo : ℕ} {hi : Option ℕ} (hg : IsGrid s)
    (hlo : lo < min (hi.getD s.Ysize) s.Ysize) (h : s.setRegionIdx I lo hi = .ok s') :
    rowCurrent s' lo (hi.getD s.Ysize) =
      I * s.Zsize * ((min (hi.getD s.Ysize) s.Ysize : ℕ) - (lo : ℝ)) / ((min (hi.getD s.Ysize + 1) s.Ysize : ℕ) - (lo : ℝ)) := by
  have hg' := setRegionIdx_grid hg h
  unfold Structure.setRegionIdx at h
  simp only at h
  split at h
  · cases h
  rename_i hn
  simp only [Except.ok.injEq] at h
  generalize hi.getD s.Ysize = u at *
  set m : ℕ := min u s.Ysize with hm
  set c : ℝ := I / Scalar.lit (((s.Xsize * ((min (u + 1) s.Ysize : ℕ) - (lo : ℤ)) : ℤ) : ℚ)) with hc
  have hX : s'.Xsize = s.Xsize := by rw [← h]
  have hY : s'.Ysize = s.Ysize := by rw [← h]
  have hZ : s'.Zsize = s.Zsize := by rw [← h]
  have hcur : ∀ b ∈ s'.blocks, (if lo ≤ b.iy ∧ b.iy < u then b.I else 0) =
      if lo ≤ b.iy ∧ b.iy < u then (if b.iy < s.Ysize then c else b.I) else 0 := by
    intro b hb
    rw [← h] at hb
    simp only [List.mem_map] at hb
    obtain ⟨b0, -, rfl⟩ := hb
    by_cases hr : lo ≤ b0.iy ∧ b0.iy < m
    · rw [if_pos hr]
      have h2 := hr.2
      rw [hm] at h2
      simp [(lt_min_iff.1 h2).2]
    · rw [if_neg hr]
      by_cases h3 : lo ≤ b0.iy ∧ b0.iy < u
      · rw [if_pos h3, if_pos h3, if_neg]
        intro h4
        exact hr ⟨h3.1, by rw [hm]; exact lt_min h3.2 h4⟩
      · rw [if_neg h3, if_neg h3]
  have hiy : ∀ b ∈ s'.blocks, b.iy < s.Ysize := by
    intro b hb
    have : (b.ix, b.iy, b.iz) ∈ s'.blocks.map fun b => (b.ix, b.iy, b.iz) := List.mem_map.2 ⟨b, hb, rfl⟩
    rw [hg'] at this
    simp only [List.mem_flatMap, List.mem_range, List.mem_map, Prod.mk.injEq] at this
    obtain ⟨_, _, y, hy, _, _, _, rfl, _⟩ := this
    rwa [hY] at hy
  have hsum : rowCurrent s' lo u = (s'.blocks.map fun b => if lo ≤ b.iy ∧ b.iy < u then c else 0).sum := by
    unfold rowCurrent
    have : ∀ l : List (Block ℝ), ((l.filter fun b => lo ≤ b.iy ∧ b.iy < u).map Block.I).sum =
        (l.map fun b => if lo ≤ b.iy ∧ b.iy < u then b.I else 0).sum := by
      intro l
      induction l with
      | nil => simp
      | cons b l ih =>
        by_cases hb : lo ≤ b.iy ∧ b.iy < u
        · rw [List.filter_cons_of_pos (by simpa using hb)]; simp only [List.map_cons, List.sum_cons, if_pos hb, ih]
        · rw [List.filter_cons_of_neg (by simpa using hb)]; simp only [List.map_cons, List.sum_cons, if_neg hb, ih, zero_add]
    rw [this]
    congr 1
    apply List.map_congr_left
    intro b hb
    rw [hcur b hb, if_pos (hiy b hb)]
  rw [hsum, sum_grid hg' fun _ y _ => if lo ≤ y ∧ y < u then c else 0, hX, hY, hZ]
  simp only [Finset.sum_const, Finset.card_range, nsmul_eq_mul]
  rw [← Finset.mul_sum, ← Finset.sum_filter]
  have hcard : (Finset.range s.Ysize).filter (fun y => lo ≤ y ∧ y < u) = Finset.Ico lo m := by
    ext y
    simp only [Finset.mem_filter, Finset.mem_range, Finset.mem_Ico, hm, lt_min_iff]
    tauto
  rw [hcard, Finset.sum_const, Nat.card_Ico, nsmul_eq_mul, hc, Nat.cast_sub (le_of_lt hlo)]
  simp only [Scalar.lit_real]
  push_cast
  have hn' : (s.Xsize : ℝ) * ((min (u + 1) s.Ysize : ℕ) - (lo : ℝ)) ≠ 0 := by exact_mod_cast hn
  have hx0 : (s.Xsize : ℝ) ≠ 0 := left_ne_zero_of_mul hn'
  have hy0 : ((min (u + 1) s.Ysize : ℕ) : ℝ) - (lo : ℝ) ≠ 0 := right_ne_zero_of_mul hn'
  push_cast at hy0
  field_simp

/-- C58 for the regions on which the code is right: a region that reaches the top of a structure one block deep carries exactly the
requested current. The full claim, for every region, is false: see `C58_total_refuted`. -/
theorem C58_total_partial (s s' : Structure ℝ) (I : ℝ) (lo : ℕ) (hi : Option ℕ) (hg : IsGrid s) (hz : s.Zsize = 1)
    (hlo : lo < s.Ysize) (htop : ∀ u, hi = some u → s.Ysize ≤ u) (h : s.setRegionIdx I lo hi = .ok s') :
    rowCurrent s' lo (hi.getD s.Ysize) = I := by
  have hu : s.Ysize ≤ hi.getD s.Ysize := by
    cases hi with
    | none => simp
    | some u => simpa using htop u rfl
  rw [rowCurrent_setRegion hg (by rw [min_eq_right hu]; exact hlo) h, hz, min_eq_right hu, min_eq_right (by omega)]
  have : (s.Ysize : ℝ) - lo ≠ 0 := by
    have : (lo : ℝ) < s.Ysize := by exact_mod_cast hlo
    linarith
  field_simp
  norm_num

/-- C58 fails for every region that ends below the top: it carries only the part `rows / (rows + 1)` of the requested current. -/
theorem C58_total_refuted (s s' : Structure ℝ) (I : ℝ) (lo hi : ℕ) (hg : IsGrid s) (hz : s.Zsize = 1) (hI : I ≠ 0)
    (hlo : lo < hi) (hhi : hi < s.Ysize) (h : s.setRegionIdx I lo (some hi) = .ok s') :
    rowCurrent s' lo hi = I * ((hi : ℝ) - lo) / ((hi : ℝ) - lo + 1) ∧ rowCurrent s' lo hi ≠ I := by
  have e : rowCurrent s' lo hi = I * ((hi : ℝ) - lo) / ((hi : ℝ) - lo + 1) := by
    have := rowCurrent_setRegion (hi := some hi) hg (by simp; omega) h
    simp only [Option.getD_some] at this
    rw [this, hz, min_eq_left (by omega), min_eq_left (by omega)]
    push_cast
    congr 1 <;> ring
  refine ⟨e, ?_⟩
  have hp : (0 : ℝ) < (hi : ℝ) - lo := by
    have : (lo : ℝ) < hi := by exact_mod_cast hlo
    linarith
  rw [e, Ne, div_eq_iff (by linarith)]
  intro hc
  apply hI
  linarith

/-- C58: with cells at most one unit high the default upper end of `set_region_I` is never usable: the call fails for every current
and lower end (with a type error, or a division by zero when the lower end is one cell above the coordinate `maxY`). -/
theorem C58_default_region_refuted (s : Structure ℝ) (I minY : ℝ) (hd : 0 < s.dy) (hd1 : s.dy ≤ 1) (hm : 0 ≤ s.maxY)
    (hs : (s.Ysize : ℤ) = ⌈s.maxY / s.dy⌉) (h0 : 0 ≤ minY) :
    s.setRegion I minY none = .error .typeError ∨ s.setRegion I minY none = .error .zeroDivision := by
  have hle : s.maxY ≤ s.Ysize := by
    have h1 : s.maxY ≤ s.maxY / s.dy := by
      rw [le_div_iff₀ hd]; nlinarith
    have h2 := Int.le_ceil (s.maxY / s.dy)
    rw [← hs] at h2
    push_cast at h2
    linarith
  have hlo : ¬ ⌈minY / s.dy⌉ < 0 := by
    push Not
    exact Int.ceil_nonneg (by positivity)
  unfold Structure.setRegion Structure.coords2idx
  simp only [if_neg hlo]
  split
  · exact .inr rfl
  · exact .inl rfl

/-- C58: in coordinates, `set_region_I` gives one current to exactly the blocks whose lower edge lies in the region, and changes nothing else. -/
theorem C58_coordinates (s s' : Structure ℝ) (I minY maxY : ℝ) (hd : 0 < s.dy) (h0 : 0 ≤ minY) (hm : 0 ≤ maxY)
    (h : s.setRegion I minY (some maxY) = .ok s') :
    ∃ c : ℝ, s' = { s with blocks := s'.blocks } ∧ s'.blocks.length = s.blocks.length ∧
      ∀ (i : ℕ) (hi' : i < s.blocks.length),
        (minY ≤ s.blocks[i].iy * s.dy → s.blocks[i].iy * s.dy < maxY → s.blocks[i].iy < s.Ysize →
          s'.blocks[i]? = some { s.blocks[i] with I := c }) ∧
        (s.blocks[i].iy * s.dy < minY ∨ maxY ≤ s.blocks[i].iy * s.dy → s'.blocks[i]? = some s.blocks[i]) := by
  have hlo : 0 ≤ ⌈minY / s.dy⌉ := Int.ceil_nonneg (by positivity)
  have hhi : 0 ≤ ⌈maxY / s.dy⌉ := Int.ceil_nonneg (by positivity)
  unfold Structure.setRegion Structure.coords2idx at h
  simp only [not_lt.2 hlo, not_lt.2 hhi, or_self, if_false] at h
  obtain ⟨c, h1, h2, h3⟩ := C58_others s s' I _ _ h
  have key : ∀ (y : ℝ) (k : ℕ), 0 ≤ ⌈y / s.dy⌉ → (⌈y / s.dy⌉.toNat ≤ k ↔ y ≤ k * s.dy) := by
    intro y k hy
    rw [← div_le_iff₀ hd, Int.toNat_le, Int.ceil_le]
    simp
  refine ⟨c, h1, h2, fun i hi' => ⟨fun a b n => (h3 i hi').1 ((key _ _ hlo).2 a) ?_ n, fun a => (h3 i hi').2 ?_⟩⟩
  · rw [Option.getD_some]
    exact not_le.1 fun e => absurd ((key _ _ hhi).1 e) (not_le.2 b)
  · rw [Option.getD_some]
    exact a.imp (fun e => not_le.1 fun e' => absurd ((key _ _ hlo).1 e') (not_le.2 e)) fun e => (key _ _ hhi).2 e

/-- C73 is false: the block centres are put at `(k+1)·d/2` instead of `(k+½)·d`, so every distance is half the distance of the true
centres and every wire field is twice the field at that distance. -/
theorem C73_centres_refuted (ix iy iz jx jy jz : ℕ) (dx dy dz I : ℝ) :
    let b := Block.mk' ix iy iz dx dy dz
    let o := Block.mk' jx jy jz dx dy dz
    let r := planeDist (cellCentre ix dx) (cellCentre iy dy) (cellCentre jx dx) (cellCentre jy dy)
    planeDist b.x b.y o.x o.y = r / 2 ∧ (r ≠ 0 → b.ampere { o with I := I } = .ok (2 * wireField I r)) := by
  intro b o r
  have e : planeDist b.x b.y o.x o.y = r / 2 := by
    simp only [b, o, r, planeDist, Block.mk', cellCentre, Scalar.lit_real, Scalar.ofSci_real_true]
    rw [show ∀ a : ℝ, a / 2 = √(1 / 4) * a from fun a => by
      rw [show (1 / 4 : ℝ) = (1 / 2) ^ 2 by norm_num, Real.sqrt_sq (by norm_num)]; ring]
    rw [← Real.sqrt_mul (by norm_num)]
    congr 1
    push_cast
    norm_num
    ring
  refine ⟨e, fun hr => ?_⟩
  have hne : planeDist b.x b.y o.x o.y ≠ 0 := by rw [e]; exact div_ne_zero hr two_ne_zero
  have := ampere_eq b { o with I := I }
  simp only [if_neg hne] at this
  rw [this, pull]
  simp only [e]
  congr 1
  unfold wireField
  field_simp

/-! ### Structures the class can be in -/

/-- One block per cell, one block deep, at the coordinates given by its indices. -/
structure Placed (s : Structure ℝ) : Prop where
  grid : IsGrid s
  flat : s.Zsize = 1
  dx : 0 < s.dx
  dy : 0 < s.dy
  pos : ∀ b ∈ s.blocks, b.x = (b.ix + 1) * s.dx / 2 ∧ b.y = (b.iy + 1) * s.dy / 2

theorem nodup_cells (nx ny nz : ℕ) : ((List.range nx).flatMap fun ix => (List.range ny).flatMap fun iy =>
    (List.range nz).map fun iz => (ix, iy, iz)).Nodup := by
  rw [List.nodup_flatMap]
  refine ⟨fun x _ => ?_, ?_⟩
  · rw [List.nodup_flatMap]
    refine ⟨fun y _ => (List.nodup_range).map (fun a b h => by simpa using h), ?_⟩
    refine (List.nodup_range (n := ny)).imp fun {a b} hab => ?_
    intro t h1 h2
    simp only [List.mem_map, List.mem_range] at h1 h2
    obtain ⟨_, _, rfl⟩ := h1
    obtain ⟨_, _, h2⟩ := h2
    simp at h2
    exact hab h2.1.symm
  · refine (List.nodup_range (n := nx)).imp fun {a b} hab => ?_
    intro t h1 h2
    simp only [List.mem_flatMap, List.mem_map, List.mem_range] at h1 h2
    obtain ⟨_, _, _, _, rfl⟩ := h1
    obtain ⟨_, _, _, _, h2⟩ := h2
    simp at h2
    exact hab h2.1.symm

theorem IsGrid.nodup {s : Structure ℝ} (h : IsGrid s) :
    s.blocks.Pairwise fun a b => (a.ix, a.iy, a.iz) ≠ (b.ix, b.iy, b.iz) := by
  have := nodup_cells s.Xsize s.Ysize s.Zsize
  rw [← h] at this
  exact List.pairwise_map.1 this

theorem IsGrid.bounds {s : Structure ℝ} (h : IsGrid s) {b : Block ℝ} (hb : b ∈ s.blocks) :
    b.ix < s.Xsize ∧ b.iy < s.Ysize ∧ b.iz < s.Zsize := by
  have : (b.ix, b.iy, b.iz) ∈ s.blocks.map fun b => (b.ix, b.iy, b.iz) := List.mem_map.2 ⟨b, hb, rfl⟩
  rw [h] at this
  simp only [List.mem_flatMap, List.mem_range, List.mem_map, Prod.mk.injEq] at this
  obtain ⟨x, hx, y, hy, z, hz, rfl, rfl, rfl⟩ := this
  exact ⟨hx, hy, hz⟩

theorem Placed.apart {s : Structure ℝ} (h : Placed s) : s.blocks.Pairwise Apart := by
  refine h.grid.nodup.imp_of_mem fun {a b} ha hb hne he => hne ?_
  obtain ⟨hx, hy⟩ := Prod.mk.inj he
  have h1 := h.pos a ha
  have h2 := h.pos b hb
  have hdx := h.dx.ne'
  have hdy := h.dy.ne'
  have hz : a.iz = b.iz := by
    have := h.grid.bounds ha
    have := h.grid.bounds hb
    have := h.flat
    omega
  rw [h1.1, h2.1] at hx
  rw [h1.2, h2.2] at hy
  have ex : (a.ix : ℝ) = b.ix := by
    have : ((a.ix : ℝ) + 1) * s.dx = (b.ix + 1) * s.dx := by linarith
    have := mul_right_cancel₀ hdx this
    linarith
  have ey : (a.iy : ℝ) = b.iy := by
    have : ((a.iy : ℝ) + 1) * s.dy = (b.iy + 1) * s.dy := by linarith
    have := mul_right_cancel₀ hdy this
    linarith
  simp only [Prod.mk.injEq]
  exact ⟨by exact_mod_cast ex, by exact_mod_cast ey, hz⟩

theorem placed_init {s : Structure ℝ} (hz : s.Zsize = 1) (hx : 0 < s.dx) (hy : 0 < s.dy)
    (hb : s.blocks = initBlocks s.Xsize s.Ysize s.Zsize s.dx s.dy s.dz) : Placed s where
  grid := by
    have := isGrid_reset s
    unfold IsGrid Structure.reset at *
    rw [hb]; exact this
  flat := hz
  dx := hx
  dy := hy
  pos := by
    intro b h
    rw [hb] at h
    simp only [initBlocks, List.mem_flatMap, List.mem_range, List.mem_map] at h
    obtain ⟨x, -, y, -, z, -, rfl⟩ := h
    simp only [Block.mk', Scalar.lit_real, Scalar.ofSci_real_true]
    push_cast
    norm_num

/-- Operations on a structure. -/
inductive Op where
  | region (I : ℝ) (lo : ℕ) (hi : Option ℕ)
  | compute
  | reset

/-- One operation; an operation that raises leaves the structure as it is (a region is set only after the division, and
`compute_blocks` is shown not to raise). -/
noncomputable def Op.run (s : Structure ℝ) : Op → Structure ℝ
  | .region I lo hi => match s.setRegionIdx I lo hi with
    | .ok s' => s'
    | .error _ => s
  | .compute => match s.computeBlocks with
    | .ok s' => s'
    | .error _ => s
  | .reset => s.reset

theorem computeBlocks_blocks {s s' : Structure ℝ} (ha : s.blocks.Pairwise Apart) (h : s.computeBlocks = .ok s') :
    s' = { s with blocks := s'.blocks } ∧ s'.blocks.length = s.blocks.length ∧
    ∀ (i : ℕ) (hi : i < s.blocks.length), s'.blocks[i]? = some { s.blocks[i] with
      Hlocal := s.blocks[i].Hlocal + ∑ j : Fin s.blocks.length, if (j : ℕ) = i then 0 else pull s.blocks[i] s.blocks[j] } := by
  obtain ⟨bs, h1, h2, h3⟩ := (C58_field s).1 ha
  rw [h1] at h
  cases h
  exact ⟨rfl, h2, h3⟩

theorem Placed.of_blocks {s s' : Structure ℝ} (h : Placed s) (he : s' = { s with blocks := s'.blocks })
    (hb : List.Forall₂ (fun b' b : Block ℝ => b'.ix = b.ix ∧ b'.iy = b.iy ∧ b'.iz = b.iz ∧ b'.x = b.x ∧ b'.y = b.y)
      s'.blocks s.blocks) : Placed s' := by
  have hg : s'.blocks.map (fun b => (b.ix, b.iy, b.iz)) = s.blocks.map fun b => (b.ix, b.iy, b.iz) := by
    clear he h
    generalize s'.blocks = l' at hb ⊢
    generalize s.blocks = l at hb ⊢
    induction hb with
    | nil => rfl
    | cons hh _ ih => simp only [List.map_cons, ih, hh.1, hh.2.1, hh.2.2.1]
  have hx : s'.dx = s.dx := by rw [he]
  have hy : s'.dy = s.dy := by rw [he]
  refine ⟨h.grid.of_map (by rw [he]) (by rw [he]) (by rw [he]) hg, by rw [he]; exact h.flat, by rw [hx]; exact h.dx,
    by rw [hy]; exact h.dy, ?_⟩
  intro b' hb'
  rw [hx, hy]
  obtain ⟨i, hi, rfl⟩ := List.getElem_of_mem hb'
  obtain ⟨hl, hall⟩ := List.forall₂_iff_get.1 hb
  obtain ⟨e1, e2, e3, e4, e5⟩ := hall i hi (hl ▸ hi)
  have := h.pos _ (List.getElem_mem (hl ▸ hi : i < s.blocks.length))
  simp only [List.get_eq_getElem] at e1 e2 e3 e4 e5
  rw [e1, e2, e4, e5]
  exact this

theorem Placed.run {s : Structure ℝ} (h : Placed s) (o : Op) : Placed (o.run s) := by
  cases o with
  | region I lo hi =>
    simp only [Op.run]
    cases hr : s.setRegionIdx I lo hi with
    | error e => exact h
    | ok s' =>
      obtain ⟨c, he, hl, hi'⟩ := C58_others s s' I lo hi hr
      refine h.of_blocks he (List.forall₂_iff_get.2 ⟨hl, fun i h1 h2 => ?_⟩)
      simp only [List.get_eq_getElem]
      obtain ⟨ha, hb⟩ := hi' i h2
      rw [List.getElem?_eq_getElem h1] at ha hb
      have hy := (h.grid.bounds (List.getElem_mem h2)).2.1
      by_cases hc : s.blocks[i].iy < lo ∨ hi.getD s.Ysize ≤ s.blocks[i].iy
      · rw [Option.some.inj (hb hc)]; simp
      · push Not at hc
        rw [Option.some.inj (ha hc.1 hc.2 hy)]; simp
  | compute =>
    simp only [Op.run]
    cases hr : s.computeBlocks with
    | error e => exact h
    | ok s' =>
      obtain ⟨he, hl, hi'⟩ := computeBlocks_blocks h.apart hr
      refine h.of_blocks he (List.forall₂_iff_get.2 ⟨hl, fun i h1 h2 => ?_⟩)
      simp only [List.get_eq_getElem]
      have ha := hi' i h2
      rw [List.getElem?_eq_getElem h1] at ha
      rw [Option.some.inj ha]; simp
  | reset => exact placed_init (s := s.reset) h.flat h.dx h.dy rfl

theorem placed_mk {X Y Z dx dy dz : ℝ} {s : Structure ℝ} (hx : 0 < dx) (hy : 0 < dy)
    (h : Structure.mk' X Y Z dx dy dz true = .ok s) : Placed s := by
  unfold Structure.mk' at h
  split at h
  · cases h
  simp only at h
  split at h
  · cases h
  rename_i hz
  split at h
  · cases h
  simp only [Except.ok.injEq] at h
  have hz1 : max ⌈Z / dz⌉ 1 = 1 := by
    simp only [true_and, not_lt] at hz
    exact le_antisymm hz (le_max_right _ _)
  subst h
  exact placed_init (by simp [hz1]) hx hy rfl

/-- C58: every structure accepted for Ampère's law with positive cells, after any operations, can compute its fields: no two blocks
coincide, and the next `compute_blocks` adds to every block the wire fields of all others. -/
theorem C58_compute_ok (X Y Z dx dy dz : ℝ) (s : Structure ℝ) (hx : 0 < dx) (hy : 0 < dy)
    (h : Structure.mk' X Y Z dx dy dz true = .ok s) (ops : List Op) :
    ∃ s', (ops.foldl Op.run s).computeBlocks = .ok s' := by
  have hp : Placed (ops.foldl Op.run s) := by
    have h0 := placed_mk hx hy h
    clear h
    induction ops generalizing s with
    | nil => exact h0
    | cons o ops ih => exact ih _ (h0.run o)
  obtain ⟨bs, h1, -⟩ := (C58_field _).1 hp.apart
  exact ⟨_, h1⟩

/-- C58 fails for the method "biot-savart": it only switches the check of the depth off. The fields are computed with Ampère's law all the
same, and a structure with more than one cell in depth has cells at the same place in the plane: `compute_blocks` always raises. -/
theorem C58_biot_savart_refuted (X Y Z dx dy dz : ℝ) (s : Structure ℝ) (h : Structure.mk' X Y Z dx dy dz false = .ok s)
    (hx : 0 < X / dx) (hy : 0 < Y / dy) (hz : 1 < Z / dz) : s.computeBlocks = .error .zeroDivision := by
  refine (C58_field s).2 fun hp => ?_
  unfold Structure.mk' at h
  split at h
  · cases h
  simp only at h
  split at h
  · cases h
  split at h
  · cases h
  simp only [Except.ok.injEq] at h
  subst h
  simp only at hp
  obtain ⟨nx, ex⟩ : ∃ n, ⌈X / dx⌉.toNat = n + 1 := Nat.exists_eq_succ_of_ne_zero (by have := Int.ceil_pos.2 hx; omega)
  obtain ⟨ny, ey⟩ : ∃ n, ⌈Y / dy⌉.toNat = n + 1 := Nat.exists_eq_succ_of_ne_zero (by have := Int.ceil_pos.2 hy; omega)
  obtain ⟨nz, ez⟩ : ∃ n, (max ⌈Z / dz⌉ 1).toNat = n + 2 := by
    have : 1 < ⌈Z / dz⌉ := Int.lt_ceil.2 (by exact_mod_cast hz)
    exact ⟨(max ⌈Z / dz⌉ 1).toNat - 2, by omega⟩
  rw [ex, ey, ez] at hp
  unfold initBlocks at hp
  have h1 : ∀ n, List.range (n + 1) = 0 :: (List.range n).map Nat.succ := fun n => List.range_succ_eq_map
  rw [h1 nx, h1 ny, h1 (nz + 1), h1 nz] at hp
  simp only [List.flatMap_cons, List.map_cons, List.cons_append, List.pairwise_cons] at hp
  exact hp.1 _ List.mem_cons_self rfl

/-- A structure of two cells in depth. -/
example : ∃ s, Structure.mk' 1 1 2 1 1 1 false = .ok s := by
  unfold Structure.mk'
  rw [if_neg (by norm_num)]
  simp only
  rw [if_neg (by norm_num), if_neg (by norm_num)]
  exact ⟨_, rfl⟩

/-- C58: `biot_savart` is the field of a current element at right angles, by the distance in the plane; blocks in one column give
none. -/
theorem C58_element (b o : Block ℝ) :
    (1e-15 ≤ planeDist b.x b.y o.x o.y → b.biotSavart o = o.I * o.area * b.dl / (4 * Real.pi * planeDist b.x b.y o.x o.y ^ 2)) ∧
    ((b.x, b.y) = (o.x, o.y) → b.biotSavart o = 0) := by
  have hd : distance (b.x, b.y) (o.x, o.y) = planeDist b.x b.y o.x o.y := by
    simp only [distance, planeDist, Scalar.sqrt_real, Scalar.powi_real]
  unfold Block.biotSavart
  rw [hd]
  simp only [Scalar.ltb_real, Scalar.powi_real, Scalar.pi_real, Scalar.ofSci_real_true, Scalar.ofNat_real, decide_eq_true_eq]
  constructor
  · intro h
    rw [if_neg (not_lt.2 h)]
    push_cast
    rw [div_div, mul_comm (_ ^ 2)]
  · intro h
    have : planeDist b.x b.y o.x o.y = 0 := planeDist_zero fun hn => hn h
    rw [this, if_pos (by norm_num)]
    norm_num

/-- C58: computing the fields a second time adds all contributions again. -/
theorem C58_again (s s' s'' : Structure ℝ) (ha : s.blocks.Pairwise Apart) (h : s.computeBlocks = .ok s')
    (h' : s'.computeBlocks = .ok s'') (i : ℕ) (hi : i < s.blocks.length) :
    ∃ b b', s'.blocks[i]? = some b ∧ s''.blocks[i]? = some b' ∧
      b'.Hlocal - b.Hlocal = b.Hlocal - s.blocks[i].Hlocal := by
  obtain ⟨he, hl, hi1⟩ := computeBlocks_blocks ha h
  have hget : ∀ (k : ℕ) (hk : k < s.blocks.length), s'.blocks[k]'(by omega) = { s.blocks[k] with
      Hlocal := s.blocks[k].Hlocal + ∑ j : Fin s.blocks.length, if (j : ℕ) = k then 0 else pull s.blocks[k] s.blocks[j] } := by
    intro k hk
    have := hi1 k hk
    rw [List.getElem?_eq_getElem (by omega)] at this
    exact Option.some.inj this
  have ha' : s'.blocks.Pairwise Apart := by
    rw [List.pairwise_iff_getElem] at ha ⊢
    intro k l hk hl' hkl
    rw [hget k (by omega), hget l (by omega)]
    exact ha k l (by omega) (by omega) hkl
  obtain ⟨he', hl', hi2⟩ := computeBlocks_blocks ha' h'
  refine ⟨_, _, hi1 i hi, hi2 i (by omega), ?_⟩
  simp only
  rw [hget i hi]
  have : (∑ j : Fin s'.blocks.length, if (j : ℕ) = i then 0 else pull s'.blocks[i] s'.blocks[j])
      = ∑ j : Fin s.blocks.length, if (j : ℕ) = i then 0 else pull s.blocks[i] s.blocks[j] := by
    refine Fintype.sum_equiv (finCongr hl) _ _ fun j => ?_
    simp only [finCongr_apply, Fin.val_cast]
    congr 1
    simp only [Fin.getElem_fin]
    rw [hget i hi, hget j (by have := j.2; omega)]
    rfl
  rw [hget i hi] at this
  simp only [add_sub_cancel_left]
  linarith

/-! ### C74: region contributions -/

theorem foldlM_add {α : Type} (l : List α) (f : ℝ → α → Except Err ℝ) (g : α → ℝ) (h : ∀ t, ∀ a ∈ l, f t a = .ok (t + g a)) (t : ℝ) :
    l.foldlM f t = .ok (t + (l.map g).sum) := by
  induction l generalizing t with
  | nil => simp [pure, Except.pure]
  | cons a l ih =>
    rw [List.foldlM_cons, h t a (by simp)]
    simp only [bind, Except.bind]
    rw [ih (fun t b hb => h t b (by simp [hb]))]
    simp [add_assoc]

theorem foldl_sum (l : List ℝ) (a : ℝ) : l.foldl (· + ·) a = a + l.sum := by
  induction l generalizing a with
  | nil => simp
  | cons x l ih => simp [ih, add_assoc]

/-- The field of cell `a` at cell `b`, none if they are the same. -/
noncomputable def cellPull (b a : Block ℝ) : ℝ := if a.ix = b.ix ∧ a.iy = b.iy ∧ a.iz = b.iz then 0 else pull b a

theorem between_eq {s : Structure ℝ} (ha : s.blocks.Pairwise Apart) (p q t u : ℕ) :
    s.contributionBetween p q t u = .ok (((s.blocks.filter fun b => p ≤ b.iy ∧ b.iy < q).map fun a =>
      ((s.blocks.filter fun b => t ≤ b.iy ∧ b.iy < u).map fun b => cellPull b a).sum).sum) := by
  unfold Structure.contributionBetween
  simp only
  rw [foldlM_add _ _ (fun a => ((s.blocks.filter fun b => t ≤ b.iy ∧ b.iy < u).map fun b => cellPull b a).sum)]
  · simp
  · intro x a hsrc
    rw [foldlM_add _ _ fun b => cellPull b a]
    intro x b htgt
    unfold cellPull
    split
    · simp
    · rename_i hne
      have : Apart b a := by
        have : Std.Symm Apart := ⟨fun _ _ h => Apart.symm h⟩
        refine List.Pairwise.forall ha (List.mem_filter.1 htgt).1 (List.mem_filter.1 hsrc).1 ?_
        rintro rfl
        exact hne ⟨rfl, rfl, rfl⟩
      rw [ampere_ok this]
      rfl

/-- C74: the field that computing the blocks adds to a region is the sum of the contributions, computed by
`compute_region_contribution`, of the whole structure; and the contributions of two source regions that share a border add up. -/
theorem C74_regions (s s' : Structure ℝ) (hg : IsGrid s) (ha : s.blocks.Pairwise Apart) (h : s.computeBlocks = .ok s') (t u : ℕ) :
    ∃ v, s.contributionBetween 0 s.Ysize t u = .ok v ∧
      s'.regionContribution t (some u) = s.regionContribution t (some u) + v ∧
      ∀ q, q ≤ s.Ysize → ∃ v₁ v₂, s.contributionBetween 0 q t u = .ok v₁ ∧ s.contributionBetween q s.Ysize t u = .ok v₂ ∧
        v₁ + v₂ = v := by
  refine ⟨_, between_eq ha _ _ _ _, ?_, fun q hq => ⟨_, _, between_eq ha _ _ _ _, between_eq ha _ _ _ _, ?_⟩⟩
  · have hall : (s.blocks.filter fun b => 0 ≤ b.iy ∧ b.iy < s.Ysize) = s.blocks := by
      rw [List.filter_eq_self]
      intro b hb
      simp [(hg.bounds hb).2.1]
    rw [hall]
    obtain ⟨he, hl, hi⟩ := computeBlocks_blocks ha h
    have hmap : s'.blocks = s.blocks.map fun b => { b with Hlocal := b.Hlocal + (s.blocks.map fun a => cellPull b a).sum } := by
      apply List.ext_getElem?
      intro i
      by_cases hlt : i < s.blocks.length
      · rw [hi i hlt, List.getElem?_map, List.getElem?_eq_getElem hlt]
        simp only [Option.map_some, Option.some.injEq]
        congr 2
        rw [show (s.blocks.map fun a => cellPull s.blocks[i] a) = List.ofFn fun j : Fin s.blocks.length => cellPull s.blocks[i] s.blocks[j] from by
          apply List.ext_getElem <;> simp]
        rw [List.sum_ofFn]
        refine Finset.sum_congr rfl fun j _ => ?_
        unfold cellPull
        by_cases hji : (j : ℕ) = i
        · rw [if_pos hji, if_pos]
          simp only [Fin.getElem_fin, hji, and_self]
        · rw [if_neg hji, if_neg]
          intro hc
          have hnd := List.pairwise_iff_getElem.1 hg.nodup
          rcases Nat.lt_or_gt_of_ne hji with hlt' | hlt'
          · exact hnd j i j.2 hlt hlt' (by simp only [Fin.getElem_fin] at hc; rw [hc.1, hc.2.1, hc.2.2])
          · exact hnd i j hlt j.2 hlt' (by simp only [Fin.getElem_fin] at hc; rw [hc.1, hc.2.1, hc.2.2])
      · rw [List.getElem?_eq_none (by omega), List.getElem?_eq_none (by simpa using hlt)]
    unfold Structure.regionContribution
    have hY : s'.Ysize = s.Ysize := by rw [he]
    simp only [hY, hmap, Option.getD_some, foldl_sum, Scalar.ofNat_real]
    have hfil : ∀ l : List (Block ℝ), (∀ b ∈ l, b.iy < s.Ysize) →
        (((l.map fun b => { b with Hlocal := b.Hlocal + (s.blocks.map fun a => cellPull b a).sum }).filter
          fun b => t ≤ b.iy ∧ b.iy < min u s.Ysize).map Block.Hlocal).sum =
        ((l.filter fun b => t ≤ b.iy ∧ b.iy < min u s.Ysize).map Block.Hlocal).sum +
          (s.blocks.map fun a => ((l.filter fun b => t ≤ b.iy ∧ b.iy < u).map fun b => cellPull b a).sum).sum := by
      intro l hl
      induction l with
      | nil => simp
      | cons b l ih =>
        have ih := ih fun c hc => hl c (by simp [hc])
        have hb := hl b (by simp)
        by_cases hr : t ≤ b.iy ∧ b.iy < u
        · have hr' : t ≤ b.iy ∧ b.iy < min u s.Ysize := ⟨hr.1, lt_min hr.2 hb⟩
          rw [List.map_cons, List.filter_cons_of_pos (by simpa using hr'), List.filter_cons_of_pos (by simpa using hr'),
            List.filter_cons_of_pos (by simpa using hr)]
          simp only [List.map_cons, List.sum_cons, ih, List.sum_map_add]
          ring
        · have hr' : ¬ (t ≤ b.iy ∧ b.iy < min u s.Ysize) := fun h => hr ⟨h.1, lt_of_lt_of_le h.2 (min_le_left _ _)⟩
          rw [List.map_cons, List.filter_cons_of_neg (by simpa using hr'), List.filter_cons_of_neg (by simpa using hr'),
            List.filter_cons_of_neg (by simpa using hr)]
          exact ih
    rw [hfil _ fun b hb => (hg.bounds hb).2.1]
    ring
  · generalize (fun a => ((s.blocks.filter fun b => t ≤ b.iy ∧ b.iy < u).map fun b => cellPull b a).sum) = f
    induction s.blocks with
    | nil => simp
    | cons b l ih =>
      simp only [List.filter_cons]
      by_cases h1 : b.iy < q
      · have h2 : b.iy < s.Ysize := by omega
        have h3 : ¬ q ≤ b.iy := by omega
        simp [h1, h2, h3]
        simp at ih
        linarith
      · by_cases h2 : b.iy < s.Ysize
        · have h3 : q ≤ b.iy := by omega
          simp [h1, h2, h3]
          simp at ih
          linarith
        · simp [h1, h2]
          simp at ih
          linarith

/-! ### Cases that meet the hypotheses -/

/-- A strip one block wide, three high and one deep. -/
noncomputable def strip : Structure ℝ := ⟨1, 3, 1, 1, 1, 1, 1, 3, 1, initBlocks 1 3 1 1 1 1⟩

example : Structure.mk' 1 3 1 1 1 1 true = .ok strip := by
  norm_num [Structure.mk', strip]
  exact ⟨rfl, rfl⟩

theorem strip_placed : Placed strip := placed_init rfl (by norm_num [strip]) (by norm_num [strip]) rfl

/-- The middle row of the strip asked to carry 2 A carries 1 A; the upper two rows carry all of it. -/
example : ∃ s', strip.setRegionIdx 2 1 (some 2) = .ok s' ∧ rowCurrent s' 1 2 = 1 := by
  have h : ∃ s', strip.setRegionIdx 2 1 (some 2) = .ok s' := by
    unfold Structure.setRegionIdx
    simp [strip]
  obtain ⟨s', h⟩ := h
  refine ⟨s', h, ?_⟩
  have := (C58_total_refuted strip s' 2 1 2 strip_placed.grid rfl two_ne_zero (by norm_num) (by norm_num [strip]) h).1
  rw [this]; norm_num

example : ∃ s', strip.setRegionIdx 2 1 none = .ok s' ∧ rowCurrent s' 1 3 = 2 := by
  have h : ∃ s', strip.setRegionIdx 2 1 none = .ok s' := by
    unfold Structure.setRegionIdx
    simp [strip]
  obtain ⟨s', h⟩ := h
  exact ⟨s', h, C58_total_partial strip s' 2 1 none strip_placed.grid rfl (by norm_num [strip]) (by simp) h⟩

/-- `C58_coordinates` applies to the strip: the region from 1 to 2 is its middle row. -/
example : ∃ s', strip.setRegion 2 1 (some 2) = .ok s' ∧ 0 < strip.dy := by
  have h : ∃ s', strip.setRegion 2 1 (some 2) = .ok s' := by
    unfold Structure.setRegion Structure.coords2idx Structure.setRegionIdx
    simp [strip]
  obtain ⟨s', h⟩ := h
  exact ⟨s', h, by norm_num [strip]⟩

/-- The default upper end fails on the strip. -/
example (I : ℝ) : strip.setRegion I 1 none = .error .typeError ∨ strip.setRegion I 1 none = .error .zeroDivision :=
  C58_default_region_refuted strip I 1 (by norm_num [strip]) (by norm_num [strip]) (by norm_num [strip]) (by norm_num [strip])
    (by norm_num)

/-- Fields can be computed on the strip. -/
example : ∃ s', strip.computeBlocks = .ok s' := C58_compute_ok 1 3 1 1 1 1 strip one_pos one_pos
  (by norm_num [Structure.mk', strip]; exact ⟨rfl, rfl⟩) []

end Oersted
