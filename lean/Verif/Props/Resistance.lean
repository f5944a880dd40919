import Verif.Spec.Resistance
import Verif.Lemmas.Calls
import Verif.Props.UnitLength
import Mathlib.Algebra.Order.BigOperators.Group.Finset
import Mathlib.Tactic.Positivity

/-! # C24, C25, C26: junction construction and magnetoresistance -/

set_option linter.unusedSectionVars false

namespace Junction
open Spec
variable {T : Type} [Scalar T]

/-! ### C24 -/

/-- C24: a junction without magnetoresistance is accepted exactly for a non-empty list of layers, and keeps them. -/
theorem C24_plain (ls : List (Layer T)) :
    (ls = [] → plain ls = .error .noLayers) ∧
    (ls ≠ [] → ∃ j, plain ls = .ok j ∧ j.layers = ls ∧ j.mrMode = .NONE ∧ j.log = [] ∧ j.logLength = 0) := by
  constructor
  · rintro rfl; rfl
  · intro h
    unfold plain
    rw [if_neg (by simpa using h)]
    exact ⟨_, rfl, rfl, rfl, rfl, rfl⟩

/-- C24: a classic junction is accepted exactly for one layer with a reference, or two layers. -/
theorem C24_classic (ls : List (Layer ℝ)) (Rp Rap : ℝ) :
    (∃ j, classic ls Rp Rap = .ok j) ↔ (∃ l, ls = [l] ∧ l.referenceLayer ≠ ⟨0, 0, 0⟩) ∨ ls.length = 2 := by
  have hz : (⟨0, 0, 0⟩ : CVec ℝ) = .zero := by ext <;> simp
  unfold classic plain
  match ls with
  | [] => simp
  | [l] =>
    by_cases h : l.referenceLayer = .zero
    · have : l.referenceLayer.length = 0 := (CVec.length_eq_zero _).2 h
      simp [this]
      rw [h, hz]
    · have : l.referenceLayer.length ≠ 0 := fun q => h ((CVec.length_eq_zero _).1 q)
      simp [this, h, hz]
  | [a, b] => simp
  | a :: b :: c :: ls => simp

/-- C24: what an accepted classic junction holds. -/
theorem C24_classic_fields (ls : List (Layer T)) (Rp Rap : T) (j : Junction T) (h : classic ls Rp Rap = .ok j) :
    j.layers = ls ∧ j.mrMode = .CLASSIC ∧ j.Rp = Rp ∧ j.Rap = Rap ∧ (ls.length = 1 ∨ ls.length = 2) ∧
    j.log = [] ∧ j.logLength = 0 := by
  unfold classic plain at h
  match ls with
  | [] => simp at h
  | [l] =>
    simp only [List.length_cons, List.length_nil, Nat.zero_add, one_ne_zero, if_false] at h
    split at h
    · simp at h
    · cases h; exact ⟨rfl, rfl, rfl, rfl, Or.inl rfl, rfl, rfl⟩
  | [a, b] => simp at h; subst h; exact ⟨rfl, rfl, rfl, rfl, Or.inr rfl, rfl, rfl⟩
  | a :: b :: c :: ls => simp at h

/-- C24: a strip junction is accepted exactly for a non-empty list of layers with one entry per layer in each of
the seven vectors. -/
theorem C24_strip (ls : List (Layer T)) (Rx0 Ry0 AX AY SX SY AH : List T) :
    ((∃ j, strip ls Rx0 Ry0 AX AY SX SY AH = .ok j) ↔ ls ≠ [] ∧ Rx0.length = ls.length ∧ Ry0.length = ls.length ∧
      AX.length = ls.length ∧ AY.length = ls.length ∧ SX.length = ls.length ∧ SY.length = ls.length ∧
      AH.length = ls.length) ∧
    ∀ j, strip ls Rx0 Ry0 AX AY SX SY AH = .ok j → j.layers = ls ∧ j.mrMode = .STRIP ∧ j.Rx0 = Rx0 ∧ j.Ry0 = Ry0 ∧
      j.AMR_X = AX ∧ j.AMR_Y = AY ∧ j.SMR_X = SX ∧ j.SMR_Y = SY ∧ j.AHE = AH := by
  unfold strip
  constructor
  · constructor
    · rintro ⟨j, h⟩
      split at h
      · simp at h
      · rename_i h0
        split at h
        · simp at h
        · rename_i h1
          push Not at h1
          obtain ⟨a, b, c, d, e, f, g⟩ := h1
          exact ⟨by simpa using h0, a.symm, b.symm, c.symm, d.symm, f.symm, g.symm, e.symm⟩
    · rintro ⟨h0, a, b, c, d, e, f, g⟩
      rw [if_neg (by simpa using h0), if_neg (by simp [a, b, c, d, e, f, g])]
      exact ⟨_, rfl⟩
  · intro j h
    split at h
    · simp at h
    · split at h
      · simp at h
      · cases h; exact ⟨rfl, rfl, rfl, rfl, rfl, rfl, rfl, rfl, rfl⟩

/-- C24: no constructor accepts an empty list of layers. -/
theorem C24_empty (Rp Rap : T) (a b c d e f g : List T) :
    plain ([] : List (Layer T)) = .error .noLayers ∧ classic [] Rp Rap = .error .noLayers ∧
    strip [] a b c d e f g = .error .noLayers := ⟨rfl, rfl, rfl⟩

/-- C24: after any sequence of calls, reading the magnetoresistance raises exactly for junctions built without a
magnetoresistance model. -/
theorem C24_read (j : Junction T) (cs : List (Call T)) :
    ((∃ ls, plain ls = .ok j) → (program cs j).getMagnetoresistance = .error .mrUnsupported) ∧
    ((∃ ls Rp Rap, classic ls Rp Rap = .ok j) → ∃ R, (program cs j).getMagnetoresistance = .ok [R]) ∧
    ((∃ ls a b c d e f g, strip ls a b c d e f g = .ok j) →
      ∃ Rx Ry, (program cs j).getMagnetoresistance = .ok [Rx, Ry, 0]) := by
  have hp := program_params cs j
  generalize program cs j = k at hp
  have hp' := hp
  obtain ⟨h1, -, -, -, -, -, -, -, -, -, -, hl⟩ := hp
  refine ⟨?_, ?_, ?_⟩
  · rintro ⟨ls, h⟩
    have hm : k.mrMode = .NONE := by
      rw [← h1]; unfold plain at h; split at h
      · simp at h
      · cases h; rfl
    unfold getMagnetoresistance
    rw [hm]
  · rintro ⟨ls, Rp, Rap, h⟩
    obtain ⟨e1, e2, -, -, e3, -⟩ := C24_classic_fields ls Rp Rap j h
    rw [← e1, hl] at e3
    rw [e2] at h1
    unfold getMagnetoresistance
    rw [← h1]
    match k.layers, e3 with
    | [l0], _ => exact ⟨_, rfl⟩
    | [l0, l1], _ => exact ⟨_, rfl⟩
    | [], e3 => simp at e3
    | _ :: _ :: _ :: _, e3 => simp at e3
  · rintro ⟨ls, a, b, c, d, e, f, g, h⟩
    obtain ⟨q, q2⟩ := C24_strip ls a b c d e f g
    obtain ⟨-, r1, r2, r3, r4, r5, r6, r7⟩ := q.1 ⟨j, h⟩
    obtain ⟨s0, s1, s2, s3, s4, s5, s6, s7, s8⟩ := q2 j h
    have hk : k.MrOk := hp'.mrOk (fun _ => by rw [s2, s3, s4, s5, s6, s7, s8, s0]; exact ⟨r1, r2, r3, r4, r5, r6, r7⟩)
    have hm : k.mrMode = .STRIP := by rw [← h1, s1]
    obtain ⟨t1, t2, t3, t4, t5, t6, t7⟩ := hk hm
    obtain ⟨p, hp⟩ := stripLoop_some k.layers k.Rx0 k.Ry0 k.AMR_X k.SMR_X k.AMR_Y k.SMR_Y k.AHE 0 0 t1 t2 t3 t5 t4 t6 t7
    unfold getMagnetoresistance
    rw [hm]
    simp only [stripMagnetoResistance, hp]
    exact ⟨_, _, rfl⟩

/-- concrete cases -/
example : ∃ j, classic [{ Layer.demo with referenceLayer := ⟨1, 0, 0⟩ }] (100 : ℝ) 200 = .ok j :=
  (C24_classic _ _ _).2 (Or.inl ⟨_, rfl, by intro h; rw [CVec.ext_iff] at h; simp at h⟩)
example : ∃ j, strip [Layer.demo] [1] [2] [3] [4] [5] [6] [7] = .ok j := (C24_strip _ _ _ _ _ _ _ _).1.2 (by simp)

/-! ### C25 -/

/-- helper -/
theorem dot_bounds (m n : CVec ℝ) (hm : m.length = 1) (hn : n.length = 1) : -1 ≤ m.dot n ∧ m.dot n ≤ 1 := by
  rw [CVec.length_eq_one] at hm hn
  simp only [CVec.normSq, CVec.dot] at *
  constructor
  · nlinarith [sq_nonneg (m.x + n.x), sq_nonneg (m.y + n.y), sq_nonneg (m.z + n.z)]
  · nlinarith [sq_nonneg (m.x - n.x), sq_nonneg (m.y - n.y), sq_nonneg (m.z - n.z)]

/-- helper -/
theorem dot_eq_one (m n : CVec ℝ) (hm : m.length = 1) (hn : n.length = 1) : m.dot n = 1 ↔ m = n := by
  rw [CVec.length_eq_one] at hm hn
  simp only [CVec.normSq, CVec.dot, CVec.ext_iff] at *
  constructor
  · intro h
    have : (m.x - n.x) ^ 2 + (m.y - n.y) ^ 2 + (m.z - n.z) ^ 2 = 0 := by linarith
    refine ⟨?_, ?_, ?_⟩ <;> nlinarith [sq_nonneg (m.x - n.x), sq_nonneg (m.y - n.y), sq_nonneg (m.z - n.z)]
  · rintro ⟨h1, h2, h3⟩; rw [h1, h2, h3]; linarith

/-- helper -/
theorem dot_eq_neg_one (m n : CVec ℝ) (hm : m.length = 1) (hn : n.length = 1) :
    m.dot n = -1 ↔ m = ⟨-n.x, -n.y, -n.z⟩ := by
  rw [CVec.length_eq_one] at hm hn
  simp only [CVec.normSq, CVec.dot, CVec.ext_iff] at *
  constructor
  · intro h
    have : (m.x + n.x) ^ 2 + (m.y + n.y) ^ 2 + (m.z + n.z) ^ 2 = 0 := by linarith
    refine ⟨?_, ?_, ?_⟩ <;> nlinarith [sq_nonneg (m.x + n.x), sq_nonneg (m.y + n.y), sq_nonneg (m.z + n.z)]
  · rintro ⟨h1, h2, h3⟩; rw [h1, h2, h3]; linarith

/-- helper -/
theorem mr_eq_gmr (j : Junction ℝ) (m n : CVec ℝ) (hm : m.length = 1) (hn : n.length = 1) :
    j.calculateMagnetoresistance (m.dot n) = gmr j.Rp j.Rap (angle m n) := by
  obtain ⟨h1, h2⟩ := dot_bounds m n hm hn
  have hc : Real.cos (angle m n) = m.dot n := Real.cos_arccos h1 h2
  have hs : Real.sin (angle m n / 2) ^ 2 = (1 - m.dot n) / 2 := by
    rw [← hc, Real.sin_sq_eq_half_sub]
    ring_nf
  unfold gmr calculateMagnetoresistance
  rw [hs]
  simp only [Scalar.ofSci_real_true]
  norm_num
  ring

/-- C25: the resistance of a classic junction depends on the magnetisations through the enclosed angle only, and is the
documented interpolation. For one layer the second vector is its reference. -/
theorem C25_formula (j : Junction ℝ) (h : j.mrMode = .CLASSIC) :
    (∀ a b, j.layers = [a, b] → a.mag.length = 1 → b.mag.length = 1 →
      j.getMagnetoresistance = .ok [gmr j.Rp j.Rap (angle a.mag b.mag)]) ∧
    (∀ a, j.layers = [a] → a.mag.length = 1 → a.referenceLayer.length = 1 →
      j.getMagnetoresistance = .ok [gmr j.Rp j.Rap (angle a.mag a.referenceLayer)]) := by
  constructor
  · intro a b hl ha hb
    unfold getMagnetoresistance
    rw [h, hl]
    simp only [mr_eq_gmr j _ _ ha hb]
  · intro a hl ha hb
    unfold getMagnetoresistance
    rw [h, hl]
    simp only [mr_eq_gmr j _ _ ha hb]

/-- C25: bounds, the extreme values exactly for parallel and antiparallel vectors, symmetry. -/
theorem C25_bounds (Rp Rap : ℝ) (h : Rp ≤ Rap) (m n : CVec ℝ) (hm : m.length = 1) (hn : n.length = 1) :
    Rp ≤ gmr Rp Rap (angle m n) ∧ gmr Rp Rap (angle m n) ≤ Rap ∧
    (Rp < Rap → (gmr Rp Rap (angle m n) = Rp ↔ m = n)) ∧
    (Rp < Rap → (gmr Rp Rap (angle m n) = Rap ↔ m = ⟨-n.x, -n.y, -n.z⟩)) ∧
    gmr Rp Rap (angle m n) = gmr Rp Rap (angle n m) := by
  obtain ⟨h1, h2⟩ := dot_bounds m n hm hn
  have hc : Real.cos (angle m n) = m.dot n := Real.cos_arccos h1 h2
  have hs : Real.sin (angle m n / 2) ^ 2 = (1 - m.dot n) / 2 := by
    rw [← hc, Real.sin_sq_eq_half_sub]; ring_nf
  have hsym : angle m n = angle n m := by unfold angle; congr 1; ring
  refine ⟨?_, ?_, ?_, ?_, by rw [hsym]⟩
  · unfold gmr; rw [hs]; nlinarith
  · unfold gmr; rw [hs]; nlinarith
  · intro hlt
    rw [← dot_eq_one m n hm hn]
    unfold gmr; rw [hs]
    constructor
    · intro q
      have : (Rap - Rp) * (1 - m.dot n) = 0 := by linarith
      rcases mul_eq_zero.1 this with q | q <;> linarith
    · intro q; rw [q]; ring
  · intro hlt
    rw [← dot_eq_neg_one m n hm hn]
    unfold gmr; rw [hs]
    constructor
    · intro q
      have : (Rap - Rp) * (1 + m.dot n) = 0 := by linarith
      rcases mul_eq_zero.1 this with q | q <;> linarith
    · intro q; rw [q]; ring

/-- C25: the resistance grows with the angle. -/
theorem C25_monotone (Rp Rap : ℝ) (h : Rp < Rap) (θ φ : ℝ) (h0 : 0 ≤ θ) (h1 : θ < φ) (h2 : φ ≤ Real.pi) :
    gmr Rp Rap θ < gmr Rp Rap φ := by
  have hs : Real.sin (θ / 2) < Real.sin (φ / 2) :=
    Real.sin_lt_sin_of_lt_of_le_pi_div_two (by linarith [Real.pi_pos]) (by linarith) (by linarith)
  have h3 : 0 ≤ Real.sin (θ / 2) := Real.sin_nonneg_of_nonneg_of_le_pi (by linarith) (by linarith [Real.pi_pos])
  unfold gmr
  have : Real.sin (θ / 2) ^ 2 < Real.sin (φ / 2) ^ 2 := by nlinarith
  nlinarith

/-- the angle is in the range of the previous theorem -/
theorem C25_angle_range (m n : CVec ℝ) : 0 ≤ angle m n ∧ angle m n ≤ Real.pi :=
  ⟨Real.arccos_nonneg _, Real.arccos_le_pi _⟩

example : (⟨0, 0, 1⟩ : CVec ℝ).length = 1 ∧ (⟨0, 0, 1⟩ : CVec ℝ) ≠ ⟨-(0 : ℝ), -0, -1⟩ := by
  constructor
  · rw [CVec.length_eq_one]; simp [CVec.normSq]
  · intro h; rw [CVec.ext_iff] at h; norm_num at h

/-! ### C26 -/

/-- helper -/
theorem stripLoop_sum (ls : List (Layer ℝ)) (rx ry ax sx ay sy ah : List ℝ) (x y : ℝ) (p : ℝ × ℝ)
    (h : stripLoop ls rx ry ax sx ay sy ah x y = some p) :
    p.1 = x + ∑ i ∈ Finset.range ls.length, 1 / (rx.getD i 0
      + ax.getD i 0 * ((ls.map Layer.mag).getD i .zero).x ^ 2 + sx.getD i 0 * ((ls.map Layer.mag).getD i .zero).y ^ 2) ∧
    p.2 = y + ∑ i ∈ Finset.range ls.length, 1 / (ry.getD i 0 + ah.getD i 0 * ((ls.map Layer.mag).getD i .zero).z / 2
      + (ay.getD i 0 + sy.getD i 0) * ((ls.map Layer.mag).getD i .zero).x * ((ls.map Layer.mag).getD i .zero).y) := by
  induction ls generalizing rx ry ax sx ay sy ah x y with
  | nil => simp only [stripLoop, Option.some.injEq] at h; subst h; simp
  | cons l ls ih =>
    cases rx with
    | nil => simp [stripLoop] at h
    | cons rx0 rx =>
    cases ry with
    | nil => simp [stripLoop] at h
    | cons ry0 ry =>
    cases ax with
    | nil => simp [stripLoop] at h
    | cons ax0 ax =>
    cases sx with
    | nil => simp [stripLoop] at h
    | cons sx0 sx =>
    cases ay with
    | nil => simp [stripLoop] at h
    | cons ay0 ay =>
    cases sy with
    | nil => simp [stripLoop] at h
    | cons sy0 sy =>
    cases ah with
    | nil => simp [stripLoop] at h
    | cons ah0 ah =>
    simp only [stripLoop] at h
    obtain ⟨h1, h2⟩ := ih _ _ _ _ _ _ _ _ _ h
    rw [h1, h2]
    simp only [List.length_cons, List.map_cons, Finset.sum_range_succ', List.getD_cons_succ, List.getD_cons_zero, stripTerm,
      Scalar.ofSci_real_true, Scalar.ofNat_real]
    constructor
    · rw [add_assoc]; congr 1; rw [add_comm]; congr 2 <;> [(push_cast; ring); (norm_num; ring)]
    · rw [add_assoc]; congr 1; rw [add_comm]; congr 2 <;> [(push_cast; ring); (norm_num; ring)]

/-- helper -/
theorem magAt_eq (j : Junction ℝ) (i : Nat) : (j.layers.map Layer.mag).getD i .zero = magAt j i := by
  unfold magAt
  rw [List.getD_eq_getElem?_getD, List.getElem?_map]
  rcases j.layers[i]? with _ | l
  · simp [CVec.zero]
  · rfl

/-- helper -/
theorem strip_exists (j : Junction T) (h : j.mrMode = .STRIP) (hl : j.MrOk) : ∃ p x, x = (0 : T) ∧
    stripLoop j.layers j.Rx0 j.Ry0 j.AMR_X j.SMR_X j.AMR_Y j.SMR_Y j.AHE x x = some p ∧
    j.getMagnetoresistance = .ok [1 / p.1, 1 / p.2, 0] := by
  obtain ⟨t1, t2, t3, t4, t5, t6, t7⟩ := hl h
  obtain ⟨p, hp⟩ := stripLoop_some j.layers j.Rx0 j.Ry0 j.AMR_X j.SMR_X j.AMR_Y j.SMR_Y j.AHE 0 0 t1 t2 t3 t5 t4 t6 t7
  refine ⟨p, 0, rfl, hp, ?_⟩
  unfold getMagnetoresistance
  rw [h]
  simp only [stripMagnetoResistance, hp]

/-- C26: the strip resistance is, per direction, the parallel combination of the documented per-layer values, and 0
for z. -/
theorem C26_parallel (j : Junction ℝ) (h : j.mrMode = .STRIP) (hl : j.MrOk) :
    j.getMagnetoresistance = .ok [parallel j.layers.length (stripRx j), parallel j.layers.length (stripRy j), 0] := by
  obtain ⟨p, x, hx, hp, hr⟩ := strip_exists j h hl
  obtain ⟨h1, h2⟩ := stripLoop_sum _ _ _ _ _ _ _ _ _ _ p hp
  rw [hr, h1, h2, hx]
  simp only [Scalar.ofNat_real, Nat.cast_zero, Nat.cast_one, zero_add, magAt_eq]
  rfl

/-- C26: for positive values the combination is positive and at most each of them, strictly less with at least two. -/
theorem C26_bounds (n : Nat) (R : Nat → ℝ) (h : ∀ i < n, 0 < R i) (hn : 0 < n) :
    0 < parallel n R ∧ (∀ i < n, parallel n R ≤ R i) ∧ (1 < n → ∀ i < n, parallel n R < R i) := by
  have hpos : ∀ i ∈ Finset.range n, 0 < 1 / R i := fun i hi => by
    have := h i (Finset.mem_range.1 hi); positivity
  have hS : 0 < ∑ i ∈ Finset.range n, 1 / R i := Finset.sum_pos hpos ⟨0, Finset.mem_range.2 hn⟩
  have hle : ∀ i < n, 1 / R i ≤ ∑ i ∈ Finset.range n, 1 / R i := fun i hi =>
    Finset.single_le_sum (fun k hk => (hpos k hk).le) (Finset.mem_range.2 hi)
  refine ⟨by unfold parallel; positivity, ?_, ?_⟩
  · intro i hi
    unfold parallel
    have := h i hi
    rw [div_le_iff₀ hS]
    have := hle i hi
    rw [div_le_iff₀ (h i hi)] at this
    linarith
  · intro h1 i hi
    have hlt : 1 / R i < ∑ i ∈ Finset.range n, 1 / R i := by
      obtain ⟨k, hk, hki⟩ : ∃ k < n, k ≠ i := by
        by_cases h0 : i = 0
        · exact ⟨1, h1, by omega⟩
        · exact ⟨0, hn, fun q => h0 q.symm⟩
      exact Finset.single_lt_sum hki (Finset.mem_range.2 hi) (Finset.mem_range.2 hk) (hpos k (Finset.mem_range.2 hk))
        (fun q hq _ => (hpos q hq).le)
    unfold parallel
    rw [div_lt_iff₀ hS]
    rw [div_lt_iff₀ (h i hi)] at hlt
    linarith

/-- C26: one layer is its own combination; the hypotheses are met by a concrete strip. -/
theorem C26_single (R : Nat → ℝ) : parallel 1 R = R 0 := by simp [parallel]

example : ∃ j : Junction ℝ, j.mrMode = .STRIP ∧ j.MrOk ∧ j.layers.length = 2 :=
  ⟨{ demoJ with mrMode := .STRIP, layers := [Layer.demo, Layer.demo], Rx0 := [1, 2], Ry0 := [1, 2], AMR_X := [1, 2],
                AMR_Y := [1, 2], SMR_X := [1, 2], SMR_Y := [1, 2], AHE := [1, 2] }, rfl, fun _ => by simp, rfl⟩

end Junction
