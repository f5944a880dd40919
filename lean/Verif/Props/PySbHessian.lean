import Verif.Lemmas.PySbSmooth
import Verif.Props.PySb
import Mathlib.LinearAlgebra.Matrix.Block

/-!
# Claim C56: the Smit-Beljers Hessian
-/

set_option linter.unusedSectionVars false

namespace SB
open Scalar Matrix

/-! ## The filled matrix -/

private theorem foldl_key (f : (Nat → Nat → ℂ) → Nat × Nat → (Nat → Nat → ℂ)) (a b : Nat) (K : Nat × Nat) (v : ℂ)
    (L : List (Nat × Nat)) (hK : K ∈ L) (hoff : ∀ h, ∀ p ∈ L, p ≠ K → f h p a b = h a b) (hset : ∀ h, f h K a b = v)
    (h : Nat → Nat → ℂ) : (L.foldl f h) a b = v := by
  induction L generalizing h with
  | nil => simp at hK
  | cons p L ih =>
    rw [List.foldl_cons]
    by_cases hL : K ∈ L
    · exact ih hL (fun h q hq => hoff h q (List.mem_cons_of_mem _ hq)) _
    · have hp : p = K := by
        rcases List.mem_cons.mp hK with h | h
        · exact h.symm
        · exact absurd h hL
      subst hp
      have hrest : ∀ g, (L.foldl f g) a b = g a b := by
        intro g
        have : ∀ q ∈ L, q ≠ p := fun q hq he => hL (he ▸ hq)
        clear ih hK
        induction L generalizing g with
        | nil => rfl
        | cons q L ih2 =>
          rw [List.foldl_cons, ih2 (fun h r hr => hoff h r (by simp at hr ⊢; tauto)) (fun hh => hL (List.mem_cons_of_mem _ hh)) _
            (fun r hr => this r (List.mem_cons_of_mem _ hr))]
          exact hoff g q (by simp) (this q (by simp))
      rw [hrest, hset]

private theorem mem_pairs {n i j : Nat} : (i, j) ∈ pairs n ↔ i ≤ j ∧ j < n := by
  simp only [pairs, List.mem_flatMap, List.mem_range, List.mem_map, List.mem_range'_1, Prod.mk.injEq]
  constructor
  · rintro ⟨a, ha, b, hb, rfl, rfl⟩; omega
  · rintro ⟨h1, h2⟩; exact ⟨i, by omega, j, by omega, rfl, rfl⟩

private theorem step_off (d : Coord → Coord → ℝ) (id : Nat → Int) (z : Nat → ℝ) (h : Nat → Nat → ℂ) (p : Nat × Nat) (a b : Nat)
    (hp : p.1 ≤ p.2) (hne : p ≠ (min (a / 2) (b / 2), max (a / 2) (b / 2))) : hessStep d id z h p a b = h a b := by
  obtain ⟨i, j⟩ := p
  have hne' : ¬ (i = min (a / 2) (b / 2) ∧ j = max (a / 2) (b / 2)) := fun h => hne (by rw [h.1, h.2])
  simp only at hp
  unfold hessStep setEntry
  dsimp only
  by_cases hij : i = j
  · rw [if_pos hij]
    rw [if_neg (by omega), if_neg (by omega), if_neg (by omega), if_neg (by omega), if_neg (by omega), if_neg (by omega)]
  · rw [if_neg hij]
    rw [if_neg (by omega), if_neg (by omega), if_neg (by omega), if_neg (by omega), if_neg (by omega), if_neg (by omega),
      if_neg (by omega), if_neg (by omega)]

/-- An entry of the filled matrix is what the step for its block writes. -/
private theorem fill_entry (n : Nat) (d : Coord → Coord → ℝ) (id : Nat → Int) (z : Nat → ℝ) (a b : Nat) (ha : a < 2 * n)
    (hb : b < 2 * n) (v : ℂ) (hv : ∀ h, hessStep d id z h (min (a / 2) (b / 2), max (a / 2) (b / 2)) a b = v) :
    fillHessian n d id z a b = v := by
  unfold fillHessian
  refine foldl_key _ a b _ v _ (mem_pairs.mpr ⟨by omega, by omega⟩) (fun h p hp hne => ?_) hv _
  obtain ⟨i, j⟩ := p
  exact step_off d id z h _ a b (mem_pairs.mp hp).1 hne

/-- The symbol of a row or column. -/
def symOf (id : Nat → Int) (a : Nat) : Coord := if a % 2 = 0 then .theta (id (a / 2)) else .phi (id (a / 2))

private theorem step_on (d : Coord → Coord → ℝ) (id : Nat → Int) (z : Nat → ℝ) (h : Nat → Nat → ℂ) (i j r q : Nat) (hij : i < j)
    (hr : r = 0 ∨ r = 1) (hq : q = 0 ∨ q = 1) :
    hessStep d id z h (i, j) (2 * i + r) (2 * j + q) = d (symOf id (2 * i + r)) (symOf id (2 * j + q)) ∧
    hessStep d id z h (i, j) (2 * j + q) (2 * i + r) = d (symOf id (2 * i + r)) (symOf id (2 * j + q)) := by
  have s0 : ∀ k, symOf id (2 * k) = .theta (id k) := by
    intro k; unfold symOf; rw [if_pos (by omega), show 2 * k / 2 = k by omega]
  have s1 : ∀ k, symOf id (2 * k + 1) = .phi (id k) := by
    intro k; unfold symOf; rw [if_neg (by omega), show (2 * k + 1) / 2 = k by omega]
  have ne : i ≠ j := by omega
  have ne' : j ≠ i := by omega
  have o1 : ∀ k l : Nat, 2 * k ≠ 2 * l + 1 := by omega
  have o2 : ∀ k l : Nat, 2 * k + 1 ≠ 2 * l := by omega
  rcases hr with rfl | rfl <;> rcases hq with rfl | rfl <;> simp only [Nat.add_zero, s0, s1] <;> unfold hessStep setEntry <;>
    simp [ne, ne', o1, o2]

private theorem fill_off (n : Nat) (d : Coord → Coord → ℝ) (id : Nat → Int) (z : Nat → ℝ) (a b : Nat) (ha : a < 2 * n)
    (hb : b < 2 * n) (hab : a / 2 < b / 2) :
    fillHessian n d id z a b = d (symOf id a) (symOf id b) ∧ fillHessian n d id z b a = d (symOf id a) (symOf id b) := by
  have ea : a = 2 * (a / 2) + a % 2 := by omega
  have eb : b = 2 * (b / 2) + b % 2 := by omega
  have hs := fun h => step_on d id z h (a / 2) (b / 2) (a % 2) (b % 2) hab (by omega) (by omega)
  rw [← ea, ← eb] at hs
  constructor
  · apply fill_entry n d id z a b ha hb
    intro h
    rw [min_eq_left hab.le, max_eq_right hab.le]
    exact (hs h).1
  · apply fill_entry n d id z b a hb ha
    intro h
    rw [min_eq_right hab.le, max_eq_left hab.le]
    exact (hs h).2

private theorem fill_diag (n : Nat) (d : Coord → Coord → ℝ) (id : Nat → Int) (z : Nat → ℝ) (i : Nat) (hi : i < n) :
    fillHessian n d id z (2 * i) (2 * i) = d (.theta (id i)) (.theta (id i)) ∧
    fillHessian n d id z (2 * i + 1) (2 * i + 1) = d (.phi (id i)) (.phi (id i)) ∧
    fillHessian n d id z (2 * i + 1) (2 * i) = d (.theta (id i)) (.phi (id i)) + Complex.I * z i ∧
    fillHessian n d id z (2 * i) (2 * i + 1) = d (.theta (id i)) (.phi (id i)) - Complex.I * z i := by
  have h1 : 2 * i / 2 = i := by omega
  have h2 : (2 * i + 1) / 2 = i := by omega
  refine ⟨?_, ?_, ?_, ?_⟩ <;> apply fill_entry n d id z _ _ (by omega) (by omega) <;> intro h <;>
    simp only [h1, h2, min_self, max_self] <;> unfold hessStep setEntry <;> simp

/-- C56: the matrix has Hermitian structure for every energy (any function, any number of layers): each entry is the complex conjugate
of its mirror image. -/
theorem C56_hermitian (s : Solver ℝ) (H : CVec ℝ) (x : Coord → ℝ) (ω : ℝ) (a b : Nat) (ha : a < 2 * s.layers.length)
    (hb : b < 2 * s.layers.length) : s.hessian H x ω a b = starRingEnd ℂ (s.hessian H x ω b a) := by
  unfold Solver.hessian
  set d := fun a b => pd (pd (s.energy H) a) b x
  set id := fun i => (s.layerAt i).id
  set z := fun i => (s.layerAt i).correction ω x
  rcases lt_trichotomy (a / 2) (b / 2) with h | h | h
  · obtain ⟨h1, h2⟩ := fill_off s.layers.length d id z a b ha hb h
    rw [h1, h2, Complex.conj_ofReal]
  · obtain ⟨h1, h2, h3, h4⟩ := fill_diag s.layers.length d id z (a / 2) (by omega)
    rcases Nat.mod_two_eq_zero_or_one a with ha2 | ha2 <;> rcases Nat.mod_two_eq_zero_or_one b with hb2 | hb2
    · have e1 : a = 2 * (a / 2) := by omega
      have e2 : b = 2 * (a / 2) := by omega
      rw [e2, e1]; simp only [Nat.mul_div_cancel_left _ (show 0 < 2 by norm_num)]
      rw [h1, Complex.conj_ofReal]
    · have e1 : a = 2 * (a / 2) := by omega
      have e2 : b = 2 * (a / 2) + 1 := by omega
      rw [e2]; nth_rw 1 [e1]; nth_rw 4 [e1]
      rw [h3, h4]
      simp [Complex.conj_ofReal, sub_eq_add_neg]
    · have e1 : a = 2 * (a / 2) + 1 := by omega
      have e2 : b = 2 * (a / 2) := by omega
      rw [e2]; nth_rw 1 [e1]; nth_rw 4 [e1]
      rw [h3, h4]
      simp [Complex.conj_ofReal]
    · have e1 : a = 2 * (a / 2) + 1 := by omega
      have e2 : b = 2 * (a / 2) + 1 := by omega
      have : a = b := by omega
      subst this
      rw [e1, h2, Complex.conj_ofReal]
  · obtain ⟨h1, h2⟩ := fill_off s.layers.length d id z b a hb ha h
    rw [h1, h2, Complex.conj_ofReal]


/-- C56: every entry is the second derivative of the energy in the angles of its row and column (in either order of differentiation,
for any accepted number of layers and any couplings); the two mixed entries of each layer carry in addition plus and minus
i ω/γ · Ms sin θ · t. -/
theorem C56_entries (s : Solver ℝ) (hs : s.Sized) (H : CVec ℝ) (x : Coord → ℝ) (ω : ℝ) (a b : Nat) (ha : a < 2 * s.layers.length)
    (hb : b < 2 * s.layers.length) :
    let sym := symOf fun i => (s.layerAt i).id
    let z := fun i => ω / gamma * (s.layerAt i).Ms * Real.sin (x (.theta (s.layerAt i).id)) * (s.layerAt i).thickness
    s.hessian H x ω a b = Spec.second (s.energy H) (sym a) (sym b) x +
      (if a % 2 = 1 ∧ a = b + 1 then Complex.I * z (b / 2) else if b % 2 = 1 ∧ b = a + 1 then -(Complex.I * z (a / 2)) else 0) := by
  intro sym z
  have hc : ∀ c c', Spec.second (s.energy H) c c' x = Spec.second (s.energy H) c' c x := fun c c' =>
    pd_comm (energy_smooth s hs H) c c' x
  unfold Solver.hessian
  set d := fun a b => pd (pd (s.energy H) a) b x with hd
  have hds : ∀ c c', d c c' = Spec.second (s.energy H) c c' x := fun _ _ => rfl
  set id := fun i => (s.layerAt i).id
  have hz : (fun i => (s.layerAt i).correction ω x) = z := rfl
  rw [hz]
  rcases lt_trichotomy (a / 2) (b / 2) with h | h | h
  · rw [(fill_off s.layers.length d id z a b ha hb h).1, if_neg (by omega), if_neg (by omega), add_zero, hds]
  · obtain ⟨h1, h2, h3, h4⟩ := fill_diag s.layers.length d id z (a / 2) (by omega)
    have s0 : ∀ k, sym (2 * k) = .theta (id k) := by
      intro k; simp only [sym, symOf]; rw [if_pos (by omega), show 2 * k / 2 = k by omega]
    have s1 : ∀ k, sym (2 * k + 1) = .phi (id k) := by
      intro k; simp only [sym, symOf]; rw [if_neg (by omega), show (2 * k + 1) / 2 = k by omega]
    rcases Nat.mod_two_eq_zero_or_one a with ha2 | ha2 <;> rcases Nat.mod_two_eq_zero_or_one b with hb2 | hb2
    · obtain rfl : a = b := by omega
      have e1 : 2 * (a / 2) = a := by omega
      have := s0 (a / 2)
      rw [e1] at h1 this
      rw [h1, this, if_neg (by omega), if_neg (by omega), add_zero, hds]
    · have e1 : 2 * (a / 2) = a := by omega
      have e2 : b = a + 1 := by omega
      have t0 := s0 (a / 2)
      have t1 := s1 (a / 2)
      rw [e1] at h4 t0 t1
      rw [e2, h4, t0, t1, if_neg (by omega), if_pos (by omega), hds]; ring
    · have e1 : 2 * (a / 2) = b := by omega
      have e2 : a = b + 1 := by omega
      have t0 := s0 (a / 2)
      have t1 := s1 (a / 2)
      rw [e1, ← e2] at h3 t1
      rw [e1] at t0
      rw [h3, t0, t1, if_pos (by omega), hds, hc, h]
    · obtain rfl : a = b := by omega
      have e1 : 2 * (a / 2) + 1 = a := by omega
      have := s1 (a / 2)
      rw [e1] at h2 this
      rw [h2, this, if_neg (by omega), if_neg (by omega), add_zero, hds]
  · rw [(fill_off s.layers.length d id z b a hb ha h).2, if_neg (by omega), if_neg (by omega), add_zero, hds, hc]

/-! ## Uncoupled layers -/

private theorem subs_other (ls : List (Layer ℝ)) (eq : List ℝ) (x : Coord → ℝ) (id : Int) (h : id ∉ ls.map (·.id)) :
    subs ls eq x (.theta id) = x (.theta id) ∧ subs ls eq x (.phi id) = x (.phi id) := by
  induction ls generalizing eq x with
  | nil => simp [subs]
  | cons l ls ih =>
    simp only [List.map_cons, List.mem_cons, not_or] at h
    rcases eq with _ | ⟨a, _ | ⟨b, eq⟩⟩
    · simp [subs]
    · simp [subs]
    · rw [subs, (ih eq _ h.2).1, (ih eq _ h.2).2]
      simp [h.1]

/-- The substitution puts the angles of the position into the symbols of the layers in turn. -/
theorem subs_get (ls : List (Layer ℝ)) (eq : List ℝ) (x : Coord → ℝ) (hn : (ls.map (·.id)).Nodup) (he : eq.length = 2 * ls.length)
    (i : Nat) (hi : i < ls.length) :
    subs ls eq x (.theta (ls[i].id)) = eq.getD (2 * i) 0 ∧ subs ls eq x (.phi (ls[i].id)) = eq.getD (2 * i + 1) 0 := by
  induction ls generalizing eq x i with
  | nil => simp at hi
  | cons l ls ih =>
    rcases eq with _ | ⟨a, _ | ⟨b, eq⟩⟩
    · simp at he
    · simp at he; omega
    · rw [subs]
      simp only [List.map_cons, List.nodup_cons] at hn
      cases i with
      | zero =>
        simp only [List.getElem_cons_zero]
        rw [(subs_other ls eq _ _ hn.1).1, (subs_other ls eq _ _ hn.1).2]
        simp
      | succ i =>
        have := ih eq (Function.update (Function.update x (.theta l.id) a) (.phi l.id) b) hn.2 (by simp at he; omega) i
          (by simpa using hi)
        simp only [List.getElem_cons_succ]
        rw [this.1, this.2, show 2 * (i + 1) = 2 * i + 1 + 1 by omega]
        simp

/-- The energy density of a layer as a function of its two angles. -/
noncomputable def Layer.angular (l : Layer ℝ) (H : CVec ℝ) (θ φ : ℝ) : ℝ :=
  Spec.density mu0 l.Ms l.Ks l.Kv.mag l.Kv.phi (vec l.Ndemag) (vec H) (vec l.Hdmi) (Spec.unit θ φ)

theorem energy_uncoupled (s : Solver ℝ) (hs : s.Sized) (h1 : ∀ j ∈ s.J1, j = 0) (h2 : ∀ j ∈ s.J2, j = 0)
    (hD : ∀ d ∈ s.ilD, d = ⟨0, 0, 0⟩) (hN : s.dipole = none) (H : CVec ℝ) (x : Coord → ℝ) :
    s.energy H x = ∑ k ∈ Finset.range s.layers.length,
      (s.layerAt k).angular H (x (.theta (s.layerAt k).id)) (x (.phi (s.layerAt k).id)) * (s.layerAt k).thickness := by
  rw [energy_sum s hs]
  have hg : ∀ k, s.gap k x = 0 := by
    intro k
    have g1 : s.J1.getD k 0 = 0 := by
      rw [List.getD_eq_getElem?_getD]
      rcases h : s.J1[k]? with _ | j
      · rfl
      · exact h1 j (List.mem_of_getElem? h)
    have g2 : s.J2.getD k 0 = 0 := by
      rw [List.getD_eq_getElem?_getD]
      rcases h : s.J2[k]? with _ | j
      · rfl
      · exact h2 j (List.mem_of_getElem? h)
    have g3 : s.ilD.getD k ⟨0, 0, 0⟩ = ⟨0, 0, 0⟩ := by
      rw [List.getD_eq_getElem?_getD]
      rcases h : s.ilD[k]? with _ | j
      · rfl
      · exact hD j (List.mem_of_getElem? h)
    have g4 : vec ⟨0, 0, 0⟩ = 0 := by ext i; fin_cases i <;> rfl
    unfold Solver.gap gapE
    rw [g1, g2, g3, hN, g4]
    simp [dipAt, Spec.coupling]
  simp only [hg, Finset.sum_const_zero, add_zero]
  refine Finset.sum_congr rfl fun k _ => ?_
  rw [density_eq]; rfl

private theorem pd_uncoupled {n : Nat} {id : Nat → Int} (hid : ∀ i < n, ∀ j < n, id i = id j → i = j) (e : Nat → ℝ → ℝ → ℝ)
    (t : Nat → ℝ) (i : Nat) (hi : i < n) :
    pd (fun x => ∑ k ∈ Finset.range n, e k (x (.theta (id k))) (x (.phi (id k))) * t k) (.theta (id i)) =
        (fun x => deriv (fun a => e i a (x (.phi (id i)))) (x (.theta (id i))) * t i) ∧
    pd (fun x => ∑ k ∈ Finset.range n, e k (x (.theta (id k))) (x (.phi (id k))) * t k) (.phi (id i)) =
        (fun x => deriv (fun b => e i (x (.theta (id i))) b) (x (.phi (id i))) * t i) := by
  have hne : ∀ k ∈ (Finset.range n).erase i, id k ≠ id i := fun k hk h =>
    (Finset.mem_erase.mp hk).1 (hid k (Finset.mem_range.mp (Finset.mem_erase.mp hk).2) i hi h)
  constructor <;> funext x <;> unfold pd
  · have : (fun a => ∑ k ∈ Finset.range n, e k (Function.update x (.theta (id i)) a (.theta (id k)))
          (Function.update x (.theta (id i)) a (.phi (id k))) * t k) =
        fun a => e i a (x (.phi (id i))) * t i +
          ∑ k ∈ (Finset.range n).erase i, e k (x (.theta (id k))) (x (.phi (id k))) * t k := by
      funext a
      rw [← Finset.add_sum_erase _ _ (Finset.mem_range.mpr hi)]
      congr 1
      · simp
      · refine Finset.sum_congr rfl fun k hk => ?_
        simp [hne k hk]
    rw [this, deriv_add_const, deriv_mul_const_field]
  · have : (fun a => ∑ k ∈ Finset.range n, e k (Function.update x (.phi (id i)) a (.theta (id k)))
          (Function.update x (.phi (id i)) a (.phi (id k))) * t k) =
        fun b => e i (x (.theta (id i))) b * t i +
          ∑ k ∈ (Finset.range n).erase i, e k (x (.theta (id k))) (x (.phi (id k))) * t k := by
      funext b
      rw [← Finset.add_sum_erase _ _ (Finset.mem_range.mpr hi)]
      congr 1
      · simp
      · refine Finset.sum_congr rfl fun k hk => ?_
        simp [hne k hk]
    rw [this, deriv_add_const, deriv_mul_const_field]

theorem pd2_uncoupled {n : Nat} {id : Nat → Int} (hid : ∀ i < n, ∀ j < n, id i = id j → i = j) (e : Nat → ℝ → ℝ → ℝ)
    (t : Nat → ℝ) (x : Coord → ℝ) (i : Nat) (hi : i < n) :
    let E := fun x : Coord → ℝ => ∑ k ∈ Finset.range n, e k (x (.theta (id k))) (x (.phi (id k))) * t k
    (∀ j < n, i ≠ j → ∀ c c', (c = .theta (id i) ∨ c = .phi (id i)) → (c' = .theta (id j) ∨ c' = .phi (id j)) →
      pd (pd E c) c' x = 0) ∧
    pd (pd E (.theta (id i))) (.theta (id i)) x = Spec.dtt (e i) (x (.theta (id i))) (x (.phi (id i))) * t i ∧
    pd (pd E (.phi (id i))) (.phi (id i)) x = Spec.dpp (e i) (x (.theta (id i))) (x (.phi (id i))) * t i ∧
    pd (pd E (.theta (id i))) (.phi (id i)) x = Spec.dtp (e i) (x (.theta (id i))) (x (.phi (id i))) * t i := by
  intro E
  obtain ⟨h1, h2⟩ := pd_uncoupled hid e t i hi
  refine ⟨fun j hj hij c c' hc hc' => ?_, ?_, ?_, ?_⟩
  · have hne : id i ≠ id j := fun h => hij (hid i hi j hj h)
    rcases hc with rfl | rfl <;> rcases hc' with rfl | rfl <;> simp only [E, h1, h2] <;> unfold pd <;>
      simp [hne]
  · simp only [E, h1]
    unfold pd Spec.dtt
    simp [deriv_mul_const_field]
  · simp only [E, h2]
    unfold pd Spec.dpp
    simp [deriv_mul_const_field]
  · simp only [E, h1]
    unfold pd Spec.dtp
    simp [deriv_mul_const_field]

/-- The determinant of a matrix of two-by-two blocks on the diagonal. -/
private theorem det_blocks (n : Nat) (M : Nat → Nat → ℂ) (h : ∀ a < 2 * n, ∀ b < 2 * n, a / 2 ≠ b / 2 → M a b = 0) :
    Matrix.det (Matrix.of fun a b : Fin (2 * n) => M a b) =
      ∏ i : Fin n, (M (2 * i) (2 * i) * M (2 * i + 1) (2 * i + 1) - M (2 * i) (2 * i + 1) * M (2 * i + 1) (2 * i)) := by
  let e : Fin 2 × Fin n ≃ Fin (2 * n) :=
    (Equiv.prodComm _ _).trans (finProdFinEquiv.trans (finCongr (mul_comm n 2)))
  have he : ∀ r i, ((e (r, i) : Fin (2 * n)) : Nat) = r + 2 * i := fun r i => rfl
  rw [← Matrix.det_submatrix_equiv_self e]
  have : (Matrix.of fun a b : Fin (2 * n) => M a b).submatrix e e =
      Matrix.blockDiagonal fun i : Fin n => Matrix.of fun r q : Fin 2 => M (r + 2 * i) (q + 2 * i) := by
    ext ⟨r, i⟩ ⟨q, j⟩
    rw [Matrix.blockDiagonal_apply, Matrix.submatrix_apply, Matrix.of_apply, he, he]
    split_ifs with hij
    · dsimp only at hij; subst hij; rfl
    · have := r.2; have := q.2; have := i.2; have := j.2
      have : (i : Nat) ≠ j := fun h => hij (Fin.ext h)
      exact h _ (by omega) _ (by omega) (by omega)
  rw [this, Matrix.det_blockDiagonal]
  refine Finset.prod_congr rfl fun i _ => ?_
  rw [Matrix.det_fin_two]
  simp [add_comm]

/-- C56: if no coupling joins the layers, the determinant vanishes exactly at the single-layer Smit-Beljers frequencies of the layers,
whatever their thicknesses: the resonances of a stack without couplings are those of its layers, and none depends on a thickness. -/
theorem C56_uncoupled (s : Solver ℝ) (hs : s.Sized) (hn : (s.layers.map (·.id)).Nodup) (h1 : ∀ j ∈ s.J1, j = 0) (h2 : ∀ j ∈ s.J2, j = 0)
    (hD : ∀ d ∈ s.ilD, d = ⟨0, 0, 0⟩) (hN : s.dipole = none) (H : CVec ℝ) (eq : List ℝ) (he : eq.length = 2 * s.layers.length)
    (hl : ∀ l ∈ s.layers, l.Ms ≠ 0 ∧ l.thickness ≠ 0) (hθ : ∀ i < s.layers.length, Real.sin (eq.getD (2 * i) 0) ≠ 0) (ω : ℝ) :
    s.hessianDet H eq ω = 0 ↔ ∃ i, ∃ hi : i < s.layers.length,
      ω ^ 2 = Spec.smitBeljers gamma s.layers[i].Ms (s.layers[i].angular H) (eq.getD (2 * i) 0) (eq.getD (2 * i + 1) 0) := by
  set n := s.layers.length with hndef
  have hla : ∀ i (hi : i < n), s.layerAt i = s.layers[i] := fun i hi => by
    simp [layerAt_eq, List.getD_eq_getElem?_getD, List.getElem?_eq_getElem hi]
  set id := fun i => (s.layerAt i).id with hiddef
  have hid : ∀ i < n, ∀ j < n, id i = id j → i = j := by
    intro i hi j hj h
    simp only [hiddef, hla i hi, hla j hj] at h
    have := (List.Nodup.getElem_inj_iff hn (i := i) (j := j) (hi := by simpa using hi) (hj := by simpa using hj)).mp (by simpa using h)
    exact this
  set x := subs s.layers eq fun _ => 0 with hx
  have hxi : ∀ i < n, x (.theta (id i)) = eq.getD (2 * i) 0 ∧ x (.phi (id i)) = eq.getD (2 * i + 1) 0 := by
    intro i hi
    simp only [hiddef, hla i hi]
    exact subs_get s.layers eq _ hn he i hi
  have hE : s.energy H = fun x => ∑ k ∈ Finset.range n,
      (fun k => (s.layerAt k).angular H) k (x (.theta (id k))) (x (.phi (id k))) * (fun k => (s.layerAt k).thickness) k := by
    funext x; exact energy_uncoupled s hs h1 h2 hD hN H x
  have key := fun i hi => pd2_uncoupled hid (fun k => (s.layerAt k).angular H) (fun k => (s.layerAt k).thickness) x i hi
  simp only [← hE] at key
  unfold Solver.hessianDet
  rw [det_blocks]
  · rw [Finset.prod_eq_zero_iff]
    have hblock : ∀ i (hi : i < n),
        s.hessian H x ω (2 * i) (2 * i) * s.hessian H x ω (2 * i + 1) (2 * i + 1) -
          s.hessian H x ω (2 * i) (2 * i + 1) * s.hessian H x ω (2 * i + 1) (2 * i) = 0 ↔
        ω ^ 2 = Spec.smitBeljers gamma s.layers[i].Ms (s.layers[i].angular H) (eq.getD (2 * i) 0) (eq.getD (2 * i + 1) 0) := by
      intro i hi
      obtain ⟨f1, f2, f3, f4⟩ := fill_diag n (fun a b => pd (pd (s.energy H) a) b x) id (fun i => (s.layerAt i).correction ω x) i hi
      obtain ⟨-, k1, k2, k3⟩ := key i hi
      unfold Solver.hessian
      rw [f1, f2, f3, f4, k1, k2, k3, (hxi i hi).1, (hxi i hi).2]
      unfold Layer.correction
      rw [(hxi i hi).1, hla i hi]
      have m0 := (hl _ (List.getElem_mem hi)).1
      have t0 := (hl _ (List.getElem_mem hi)).2
      have s0 := hθ i hi
      have g0 : (gamma : ℝ) ≠ 0 := by norm_num [gamma]
      set A := Spec.dtt (s.layers[i].angular H) (eq.getD (2 * i) 0) (eq.getD (2 * i + 1) 0)
      set B := Spec.dpp (s.layers[i].angular H) (eq.getD (2 * i) 0) (eq.getD (2 * i + 1) 0)
      set C := Spec.dtp (s.layers[i].angular H) (eq.getD (2 * i) 0) (eq.getD (2 * i + 1) 0)
      set Θ := eq.getD (2 * i) 0
      set t := s.layers[i].thickness
      set M := s.layers[i].Ms
      have e : (↑(A * t) * ↑(B * t) -
            (↑(C * t) - Complex.I * ↑(ω / gamma * M * Real.sin Θ * t)) *
              (↑(C * t) + Complex.I * ↑(ω / gamma * M * Real.sin Θ * t)) : ℂ) =
          ((t ^ 2 * (A * B - C ^ 2 - (ω / gamma * M * Real.sin Θ) ^ 2) : ℝ) : ℂ) := by
        generalize ω / gamma * M * Real.sin Θ = Z
        push_cast
        linear_combination ((Z : ℂ) * t) ^ 2 * Complex.I_sq
      have : (id i) = s.layers[i].id := by simp only [hiddef, hla i hi]
      rw [e, Complex.ofReal_eq_zero, mul_eq_zero, or_iff_right (pow_ne_zero 2 t0)]
      unfold Spec.smitBeljers
      rw [eq_div_iff (pow_ne_zero 2 (mul_ne_zero m0 s0))]
      constructor
      · intro h
        field_simp at h
        linarith
      · intro h
        field_simp
        linarith
    constructor
    · rintro ⟨i, -, hi⟩
      exact ⟨i, i.2, (hblock i i.2).mp hi⟩
    · rintro ⟨i, hi, h⟩
      exact ⟨⟨i, hi⟩, Finset.mem_univ _, (hblock i hi).mpr h⟩
  · intro a ha b hb hab
    have hs0 : ∀ a, symOf id a = .theta (id (a / 2)) ∨ symOf id a = .phi (id (a / 2)) := by
      intro a; unfold symOf; split_ifs <;> simp
    rcases lt_or_gt_of_ne hab with h | h
    · unfold Solver.hessian
      rw [(fill_off n _ id _ a b ha hb h).1, (key (a / 2) (by omega)).1 (b / 2) (by omega) hab _ _ (hs0 a) (hs0 b), Complex.ofReal_zero]
    · unfold Solver.hessian
      rw [(fill_off n _ id _ b a hb ha h).2, (key (b / 2) (by omega)).1 (a / 2) (by omega) hab.symm _ _ (hs0 b) (hs0 a),
        Complex.ofReal_zero]


/-- C56: for one layer the determinant vanishes exactly at the frequency of the Smit-Beljers formula; the thickness does not occur. -/
theorem C56_single (l : Layer ℝ) (s : Solver ℝ) (hs : s.Sized) (hl : s.layers = [l]) (hN : s.dipole = none) (hM : l.Ms ≠ 0)
    (ht : l.thickness ≠ 0) (H : CVec ℝ) (θ φ ω : ℝ) (hθ : Real.sin θ ≠ 0) :
    s.hessianDet H [θ, φ] ω = 0 ↔ ω ^ 2 = Spec.smitBeljers gamma l.Ms (l.angular H) θ φ := by
  have e1 : s.J1 = [] := List.length_eq_zero_iff.mp (by have := hs.j1; rw [hl] at this; simpa using this.symm)
  have e2 : s.J2 = [] := List.length_eq_zero_iff.mp (by have := hs.j2; rw [hl] at this; simpa using this.symm)
  have e3 : s.ilD = [] := List.length_eq_zero_iff.mp (by have := hs.d; rw [hl] at this; simpa using this.symm)
  rw [C56_uncoupled s hs (by simp [hl]) (by simp [e1]) (by simp [e2]) (by simp [e3]) hN H [θ, φ] (by simp [hl]) (by simp [hl, hM, ht])
    (by simp only [hl, List.length_singleton]; intro i hi; obtain rfl : i = 0 := by omega
        simpa using hθ)]
  constructor
  · rintro ⟨i, hi, h⟩
    obtain rfl : i = 0 := by simp [hl] at hi; exact hi
    simpa [hl] using h
  · intro h
    exact ⟨0, by simp [hl], by simpa [hl] using h⟩

/-- The energy density of a film with perpendicular anisotropy in an in-plane field. -/
private theorem angular_film (l : Layer ℝ) (hK : l.Kv.mag = 0) (hD : l.Hdmi = ⟨0, 0, 0⟩) (hN : l.Ndemag = ⟨0, 0, 1⟩) (h : ℝ) :
    l.angular ⟨h, 0, 0⟩ = fun θ φ => -(mu0 * l.Ms * h) * (Real.sin θ * Real.cos φ) + (mu0 / 2 * l.Ms ^ 2 - l.Ks) * Real.cos θ ^ 2 := by
  funext θ φ
  unfold Layer.angular Spec.density
  rw [hK, hD, hN]
  simp [vec, Spec.unit, dotProduct, Fin.sum_univ_three]
  ring

private theorem film_second (a K : ℝ) :
    let e := fun θ φ => -a * (Real.sin θ * Real.cos φ) + K * Real.cos θ ^ 2
    Spec.dtt e (Real.pi / 2) 0 = a + 2 * K ∧ Spec.dpp e (Real.pi / 2) 0 = a ∧ Spec.dtp e (Real.pi / 2) 0 = 0 := by
  intro e
  have d1 : ∀ φ θ, HasDerivAt (fun θ => e θ φ) (-a * (Real.cos θ * Real.cos φ) + K * (2 * Real.cos θ * -Real.sin θ)) θ := by
    intro φ θ
    have := (((Real.hasDerivAt_sin θ).mul_const (Real.cos φ)).const_mul (-a)).add
      (((Real.hasDerivAt_cos θ).pow 2).const_mul K)
    refine this.congr_deriv ?_
    norm_num
  have d2 : ∀ θ φ, HasDerivAt (fun φ => e θ φ) (a * (Real.sin θ * Real.sin φ)) φ := by
    intro θ φ
    have := (((Real.hasDerivAt_cos φ).const_mul (Real.sin θ)).const_mul (-a)).add_const (K * Real.cos θ ^ 2)
    refine this.congr_deriv ?_
    ring
  refine ⟨?_, ?_, ?_⟩
  · unfold Spec.dtt
    rw [show deriv (fun θ => e θ 0) = fun θ => -a * (Real.cos θ * Real.cos 0) + K * (2 * Real.cos θ * -Real.sin θ) from
      funext fun θ => (d1 0 θ).deriv]
    have := (((Real.hasDerivAt_cos (Real.pi / 2)).mul_const (Real.cos 0)).const_mul (-a)).add
      ((((Real.hasDerivAt_cos (Real.pi / 2)).const_mul 2).mul (Real.hasDerivAt_sin (Real.pi / 2)).neg).const_mul K)
    refine this.deriv.trans ?_
    simp; ring
  · unfold Spec.dpp
    rw [show deriv (fun φ => e (Real.pi / 2) φ) = fun φ => a * (Real.sin (Real.pi / 2) * Real.sin φ) from
      funext fun φ => (d2 _ φ).deriv]
    have := ((Real.hasDerivAt_sin 0).const_mul (Real.sin (Real.pi / 2))).const_mul a
    refine this.deriv.trans ?_
    simp
  · unfold Spec.dtp
    rw [show (fun φ => deriv (fun θ => e θ φ) (Real.pi / 2)) = fun _ => 0 from funext fun φ => by
      rw [(d1 φ _).deriv]; simp]
    simp

/-- C56, a textbook case: a film magnetised along an in-plane field has its resonance at Kittel's frequency. -/
theorem C56_kittel (l : Layer ℝ) (s : Solver ℝ) (hs : s.Sized) (hl : s.layers = [l]) (hN : s.dipole = none) (hM : l.Ms ≠ 0)
    (ht : l.thickness ≠ 0) (hK : l.Kv.mag = 0) (hD : l.Hdmi = ⟨0, 0, 0⟩) (hNd : l.Ndemag = ⟨0, 0, 1⟩) (h ω : ℝ) :
    s.hessianDet ⟨h, 0, 0⟩ [Real.pi / 2, 0] ω = 0 ↔
      ω ^ 2 = (gamma * mu0) ^ 2 * (h * (h + (l.Ms - 2 * l.Ks / (mu0 * l.Ms)))) := by
  rw [C56_single l s hs hl hN hM ht _ _ _ _ (by simp), angular_film l hK hD hNd]
  obtain ⟨h1, h2, h3⟩ := film_second (mu0 * l.Ms * h) (mu0 / 2 * l.Ms ^ 2 - l.Ks)
  unfold Spec.smitBeljers
  rw [h1, h2, h3, Real.sin_pi_div_two]
  have m0 : (mu0 : ℝ) ≠ 0 := by norm_num [mu0]
  have : gamma ^ 2 * ((mu0 * l.Ms * h + 2 * (mu0 / 2 * l.Ms ^ 2 - l.Ks)) * (mu0 * l.Ms * h) - 0 ^ 2) / (l.Ms * 1) ^ 2 =
      (gamma * mu0) ^ 2 * (h * (h + (l.Ms - 2 * l.Ks / (mu0 * l.Ms)))) := by
    field_simp
    ring
  rw [this]

/-- C56, what `single_layer_resonance` returns for one layer of positive thickness: the closed formula multiplied by the thickness. -/
theorem C56_resonance_partial (l : Layer ℝ) (s : Solver ℝ) (hs : s.Sized) (hl : s.layers = [l]) (hN : s.dipole = none) (ht : 0 ≤ l.thickness)
    (H : CVec ℝ) (θ φ : ℝ) :
    let D := Spec.dtt (l.angular H) θ φ * Spec.dpp (l.angular H) θ φ - Spec.dtp (l.angular H) θ φ ^ 2
    0 ≤ D / (Real.sin (θ + 1e-18) * l.Ms) ^ 2 →
      s.singleResonance H 0 [θ, φ] =
        .ok (some (l.thickness * (gammaRad / (2 * Real.pi) * √(D / (Real.sin (θ + 1e-18) * l.Ms) ^ 2)))) := by
  intro D hD
  have e1 : s.J1 = [] := List.length_eq_zero_iff.mp (by have := hs.j1; rw [hl] at this; simpa using this.symm)
  have e2 : s.J2 = [] := List.length_eq_zero_iff.mp (by have := hs.j2; rw [hl] at this; simpa using this.symm)
  have e3 : s.ilD = [] := List.length_eq_zero_iff.mp (by have := hs.d; rw [hl] at this; simpa using this.symm)
  have hE : s.energy H = fun x => ∑ k ∈ Finset.range 1,
      (fun _ => l.angular H) k (x (.theta ((fun _ => l.id) k))) (x (.phi ((fun _ => l.id) k))) * (fun _ : Nat => l.thickness) k := by
    funext x
    rw [energy_uncoupled s hs (by simp [e1]) (by simp [e2]) (by simp [e3]) hN, hl]
    simp [layerAt_eq, hl]
  have hx := subs_get [l] [θ, φ] (fun _ => 0) (by simp) (by simp) 0 (by simp)
  simp only [List.getElem_cons_zero] at hx
  obtain ⟨-, k1, k2, k3⟩ := pd2_uncoupled (n := 1) (id := fun _ => l.id) (by omega) (fun _ => l.angular H) (fun _ => l.thickness)
    (subs [l] [θ, φ] fun _ => 0) 0 (by omega)
  rw [← hE] at k1 k2 k3
  simp only [hx.1, hx.2] at k1 k2 k3
  unfold Solver.singleResonance
  rw [hl]
  simp only [List.getElem?_cons_zero, Nat.mul_zero]
  rw [k1, k2, k3]
  simp only [List.getD_cons_zero, List.getD_cons_succ, Nat.mul_zero, Nat.zero_add]
  have e : (Spec.dtt (l.angular H) θ φ * l.thickness * (Spec.dpp (l.angular H) θ φ * l.thickness) -
        (Spec.dtp (l.angular H) θ φ * l.thickness) ^ 2) / (Real.sin (θ + 1e-18) * l.Ms) ^ 2 =
      l.thickness ^ 2 * (D / (Real.sin (θ + 1e-18) * l.Ms) ^ 2) := by
    simp only [D]; ring
  rw [e, if_neg (not_lt.mpr (mul_nonneg (sq_nonneg _) hD)), Real.sqrt_mul (sq_nonneg _), Real.sqrt_sq ht]
  congr 2
  ring

/-- A film of the given thickness as the only layer of a solver. -/
noncomputable def alone (t : ℝ) : Solver ℝ :=
  ⟨[⟨0, t, ⟨0, 0, 0⟩, 0, 1e6, ⟨0, 0, 0⟩, ⟨0, 0, 1⟩, none⟩], [], [], none, [], none⟩

theorem alone_sized (t : ℝ) : (alone t).Sized := ⟨rfl, rfl, rfl⟩

/-- The hypotheses of `C56_kittel` (and so of `C56_single` and `C56_uncoupled`) are met. -/
example (ω : ℝ) := C56_kittel _ (alone 1e-9) (alone_sized _) rfl rfl (by norm_num) (by norm_num) rfl rfl rfl 1e4 ω
/-- `C56_hermitian` and `C56_entries` on the stack of three coupled layers. -/
example (H : CVec ℝ) (x : Coord → ℝ) (ω : ℝ) := C56_hermitian stack H x ω 0 3 (by simp [stack]) (by simp [stack])
example (H : CVec ℝ) (x : Coord → ℝ) (ω : ℝ) := C56_entries stack stack_sized H x ω 0 3 (by simp [stack]) (by simp [stack])

/-- C56 refuted in part: doubling the thickness of a film, which changes no zero of the determinant, doubles the frequency reported by
`single_layer_resonance`. -/
theorem C56_thickness_refuted :
    (∀ ω, (alone 1e-9).hessianDet ⟨1e4, 0, 0⟩ [Real.pi / 2, 0] ω = 0 ↔ (alone 2e-9).hessianDet ⟨1e4, 0, 0⟩ [Real.pi / 2, 0] ω = 0) ∧
    ∃ f, f ≠ 0 ∧ (alone 1e-9).singleResonance ⟨1e4, 0, 0⟩ 0 [Real.pi / 2, 0] = .ok (some f) ∧
      (alone 2e-9).singleResonance ⟨1e4, 0, 0⟩ 0 [Real.pi / 2, 0] = .ok (some (2 * f)) := by
  constructor
  · intro ω
    rw [C56_kittel _ (alone 1e-9) (alone_sized _) rfl rfl (by norm_num) (by norm_num) rfl rfl rfl,
      C56_kittel _ (alone 2e-9) (alone_sized _) rfl rfl (by norm_num) (by norm_num) rfl rfl rfl]
  · have key := fun t (ht : (0 : ℝ) ≤ t) => C56_resonance_partial _ (alone t) (alone_sized _) rfl rfl ht ⟨1e4, 0, 0⟩ (Real.pi / 2) 0
    simp only [angular_film _ (show (⟨0, _, ⟨0, 0, 0⟩, 0, 1e6, ⟨0, 0, 0⟩, ⟨0, 0, 1⟩, none⟩ : Layer ℝ).Kv.mag = 0 from rfl) rfl rfl] at key
    obtain ⟨h1, h2, h3⟩ := film_second (mu0 * 1e6 * 1e4) (mu0 / 2 * 1e6 ^ 2 - 0)
    simp only [h1, h2, h3] at key
    set q := ((mu0 * 1e6 * 1e4 + 2 * (mu0 / 2 * 1e6 ^ 2 - 0)) * (mu0 * 1e6 * 1e4) - 0 ^ 2) / (Real.sin (Real.pi / 2 + 1e-18) * 1e6) ^ 2
      with hq
    have hm : (0 : ℝ) < mu0 := by norm_num [mu0]
    have hc : 0 < Real.sin (Real.pi / 2 + 1e-18) := by
      rw [add_comm, Real.sin_add_pi_div_two]
      exact Real.cos_pos_of_mem_Ioo ⟨by linarith [Real.two_le_pi], by linarith [Real.two_le_pi]⟩
    have hpos : 0 < q := by
      rw [hq]
      apply div_pos
      · have : (0 : ℝ) < mu0 * 1e6 * 1e4 := by positivity
        have h2 : (0 : ℝ) < mu0 / 2 * 1e6 ^ 2 := by positivity
        nlinarith
      · positivity
    refine ⟨1e-9 * (gammaRad / (2 * Real.pi) * √q), ?_, key 1e-9 (by norm_num) hpos.le, ?_⟩
    · have hg : (0 : ℝ) < gammaRad := by norm_num [gammaRad]
      have := Real.sqrt_pos.mpr hpos
      positivity
    · rw [key 2e-9 (by norm_num) hpos.le]
      congr 2
      norm_num
      ring

end SB
