import Verif.Lemmas.Stack
import Verif.Props.Logs

/-! # C34, C36: construction, configuration and resistance of stacks -/

set_option linter.unusedSectionVars false

namespace Stack
open Spec Junction Layer
variable {T : Type} [Scalar T]

/-! ### C34 -/

/-- C34: a stack is accepted exactly for at least two junctions, all with classic magnetoresistance; the error tells
which condition failed. The accepted stack holds these junctions, one coupling of zero and delayed coupling. -/
theorem C34_constructor (kind : StackKind) (js : List (Junction T)) (a b : String) (ph : T) :
    ((∃ s, mk' kind js a b ph = .ok s) ↔ 2 ≤ js.length ∧ ∀ j ∈ js, j.mrMode = .CLASSIC) ∧
    (js.length < 2 → mk' kind js a b ph = .error .tooFewJunctions) ∧
    (2 ≤ js.length → (∃ j ∈ js, j.mrMode ≠ .CLASSIC) → mk' kind js a b ph = .error .nonClassicMR) ∧
    ∀ s, mk' kind js a b ph = .ok s → s.junctions = js ∧ s.kind = kind ∧ s.topId = a ∧ s.bottomId = b ∧
      s.phaseOffset = ph ∧ s.couplingStrength = [0] ∧ s.delayed = true ∧ s.stackLog = [] := by
  unfold mk'
  by_cases h : js.length < 2
  · rw [if_pos h]
    refine ⟨⟨fun ⟨s, hs⟩ => (by cases hs), fun h' => absurd h (by omega)⟩, fun _ => rfl, fun h' => absurd h (by omega), fun s hs => (by cases hs)⟩
  · rw [if_neg h]
    by_cases h2 : (js.any fun j => decide (j.mrMode ≠ .CLASSIC)) = true
    · rw [if_pos h2]
      obtain ⟨j, hj, hn⟩ := List.any_eq_true.1 h2
      refine ⟨⟨fun ⟨s, hs⟩ => (by cases hs), fun h' => absurd (h'.2 j hj) (by simpa using hn)⟩, fun h' => absurd h' h, fun _ _ => rfl,
        fun s hs => (by cases hs)⟩
    · rw [if_neg h2]
      have h3 : ∀ j ∈ js, j.mrMode = .CLASSIC := by
        intro j hj
        by_contra hn
        exact h2 (List.any_eq_true.2 ⟨j, hj, by simpa using hn⟩)
      refine ⟨⟨fun _ => ⟨by omega, h3⟩, fun _ => ⟨_, rfl⟩⟩, fun h' => absurd h' h, fun _ ⟨j, hj, hn⟩ => absurd (h3 j hj) hn, ?_⟩
      intro s hs
      cases hs
      exact ⟨rfl, rfl, rfl, rfl, rfl, rfl, rfl, rfl⟩

/-- C34: a vector of couplings is accepted exactly when it has one entry per gap, and then it is stored; otherwise the
stack is unchanged. A single coupling is always accepted. -/
theorem C34_couplings (s : Stack T) (cs : List T) :
    ((s.setCouplingStrengths cs).res = .ok () ↔ cs.length = s.junctions.length - 1) ∧
    (cs.length = s.junctions.length - 1 → (s.setCouplingStrengths cs).st = { s with couplingStrength := cs }) ∧
    (cs.length ≠ s.junctions.length - 1 → s.setCouplingStrengths cs = .fail .badCoupling s) ∧
    ∀ c, s.setCouplingStrength c = { s with couplingStrength := [c] } := by
  unfold setCouplingStrengths
  by_cases h : cs.length = s.junctions.length - 1
  · rw [if_neg (not_not.2 h)]
    exact ⟨by simp [h], fun _ => rfl, fun h' => absurd h h', fun _ => rfl⟩
  · rw [if_pos h]
    exact ⟨by simp [h], fun h' => absurd h' h, fun _ => rfl, fun _ => rfl⟩

/-- helper -/
theorem twoLayerLoop_spec (js : List (Junction T)) : twoLayerLoop js = .ok true ↔ ∀ j ∈ js, j.layers.length = 2 := by
  induction js with
  | nil => simp [twoLayerLoop]
  | cons j js ih =>
    unfold twoLayerLoop
    by_cases h3 : 3 ≤ j.layerNo
    · rw [if_pos h3]
      constructor
      · intro h; cases h
      · intro h; have := h j (by simp); unfold layerNo at h3; omega
    · rw [if_neg h3]
      by_cases h2 : j.layerNo ≠ 2
      · rw [if_pos h2]
        constructor
        · intro h; cases h
        · intro h; exact absurd (h j (by simp)) h2
      · rw [if_neg h2, ih]
        push Not at h2
        simp only [List.mem_cons, forall_eq_or_imp]
        exact ⟨fun h => ⟨h2, h⟩, fun h => h.2⟩

/-- helper -/
theorem twoLayer_spec (s : Stack T) : s.isTwoLayerMemberStack = .ok true ↔ TwoLayers s := twoLayerLoop_spec _

/-- C34: delayed coupling is always accepted, the other mode exactly when every junction has two layers. -/
theorem C34_delayed (s : Stack T) (b : Bool) :
    ((s.setDelayed b).res = .ok () ↔ b = true ∨ TwoLayers s) ∧
    ((s.setDelayed b).res = .ok () → (s.setDelayed b).st = { s with delayed := b }) ∧
    ((s.setDelayed b).res ≠ .ok () → (s.setDelayed b).st = s) := by
  unfold setDelayed
  cases b with
  | true => exact ⟨by simp [Out.ok], fun _ => rfl, fun h => absurd rfl h⟩
  | false =>
    simp only [Bool.false_eq_true, if_false, false_or, ← twoLayer_spec]
    cases h : s.isTwoLayerMemberStack with
    | error e => exact ⟨by simp [Out.fail], fun h => by simp [Out.fail] at h, fun _ => rfl⟩
    | ok t =>
      cases t with
      | true => exact ⟨by simp [Out.ok], fun _ => rfl, fun h => absurd rfl h⟩
      | false => exact ⟨by simp [Out.fail], fun h => by simp [Out.fail] at h, fun _ => rfl⟩

/-- C34: reading the log of a member, or the member, by index raises exactly out of range and otherwise gives that
member's. -/
theorem C34_index (s : Stack T) (i : Nat) :
    (s.getLogOf i = .error .badIndex ↔ s.junctions.length ≤ i) ∧ (s.getJunction i = .error .badIndex ↔ s.junctions.length ≤ i) ∧
    ∀ h : i < s.junctions.length, s.getLogOf i = .ok (s.junctions[i]).log ∧ s.getJunction i = .ok s.junctions[i] := by
  unfold getLogOf getJunction
  by_cases h : i < s.junctions.length
  · rw [List.getElem?_eq_getElem h]
    exact ⟨by simp [h], by simp [h], fun _ => ⟨rfl, rfl⟩⟩
  · rw [List.getElem?_eq_none (by omega)]
    exact ⟨by simp; omega, by simp; omega, fun h' => absurd h' h⟩

/-- what every call keeps -/
structure Valid (s : Stack T) : Prop where
  two : 2 ≤ s.junctions.length
  classic : ∀ j ∈ s.junctions, j.mrMode = .CLASSIC
  couplings : s.couplingStrength.length = 1 ∨ s.couplingStrength.length = s.junctions.length - 1
  layers : ∀ j ∈ s.junctions, j.layers.length = 1 ∨ j.layers.length = 2

/-- helper -/
theorem call_couplings (s : Stack T) (c : StackCall T) : (c.exec s).st.couplingStrength = s.couplingStrength ∨
    (c.exec s).st.couplingStrength.length = 1 ∨ (c.exec s).st.couplingStrength.length = s.junctions.length - 1 := by
  cases c with
  | coupling c => exact .inr (.inl rfl)
  | couplings cs =>
    simp only [StackCall.exec, setCouplingStrengths]
    split
    · exact .inl rfl
    · rename_i h; exact .inr (.inr (not_not.1 h))
  | delayed b =>
    left
    simp only [StackCall.exec, setDelayed]
    split
    · rfl
    · split <;> rfl
  | clearLogs => exact .inl rfl
  | run a b c => exact .inl (run_kept kept_params (fun j t => log_params j t false) s a b c).1.2.2.2.2.1
  | magnetisation i id m => exact .inl (onJunction_junctions (P := fun _ _ => True) s i _ (fun _ => trivial) (fun _ => trivial)).2.2.2.2.2.2.1
  | anisotropy i id m => exact .inl (onJunction_junctions (P := fun _ _ => True) s i _ (fun _ => trivial) (fun _ => trivial)).2.2.2.2.2.2.1
  | member i c => exact .inl (onJunction_junctions (P := fun _ _ => True) s i _ (fun _ => trivial) (fun _ => trivial)).2.2.2.2.2.2.1
  | oersted d => exact .inl (onAll_junctions (P := fun _ _ => True) s _ (fun _ => trivial) (fun _ => trivial)).2.2.2.2.2.2.1
  | externalField d => exact .inl (onAll_junctions (P := fun _ _ => True) s _ (fun _ => trivial) (fun _ => trivial)).2.2.2.2.2.2.1
  | current d => exact .inl (onAll_junctions (P := fun _ _ => True) { s with currentDriver := d } _ (fun _ => trivial) (fun _ => trivial)).2.2.2.2.2.2.1
  | resetCurrent =>
    exact .inl (onAll_junctions (P := fun _ _ => True) { s with currentDriver := .null } _ (fun _ => trivial) (fun _ => trivial)).2.2.2.2.2.2.1

/-- helper -/
theorem forall_of_forall₂ {α : Type} {P : α → α → Prop} {Q : α → Prop} (hq : ∀ a b, P a b → Q a → Q b) {l m : List α}
    (h : List.Forall₂ P l m) (hl : ∀ a ∈ l, Q a) : ∀ b ∈ m, Q b := by
  induction h with
  | nil => simp
  | cons hab _ ih =>
    simp only [List.mem_cons, forall_eq_or_imp] at hl ⊢
    exact ⟨hq _ _ hab hl.1, ih hl.2⟩

/-- helper -/
theorem Valid.call {s : Stack T} (h : s.Valid) (c : StackCall T) : (c.exec s).st.Valid := by
  obtain ⟨h1, -⟩ := StackCall.params s c
  have hl := h1.length_eq
  refine ⟨hl ▸ h.two, forall_of_forall₂ (fun a b hab ha => hab.1.symm.trans ha) h1 h.classic, ?_,
    forall_of_forall₂ (fun a b hab ha => ?_) h1 h.layers⟩
  · rw [← hl]
    rcases call_couplings s c with h' | h' | h'
    · rw [h']; exact h.couplings
    · exact .inl h'
    · exact .inr h'
  · rw [← hab.2.2.2.2.2.2.2.2.2.2.2]; exact ha

/-- helper -/
theorem classic_layers {j : Junction T} (h : Reachable j) (hc : j.mrMode = .CLASSIC) : j.layers.length = 1 ∨ j.layers.length = 2 := by
  obtain ⟨j0, cs, h0, rfl⟩ := h
  have hp := program_params cs j0
  rw [← hp.2.2.2.2.2.2.2.2.2.2.2]
  rw [← hp.1] at hc
  rcases h0 with ⟨ls, h0⟩ | ⟨ls, a, b, h0⟩ | ⟨ls, a, b, c, d, e, f, g, h0⟩
  · unfold Junction.plain at h0
    split at h0
    · cases h0
    · cases h0; cases hc
  · unfold classic at h0
    split at h0
    · cases h0
    · rename_i j hj
      unfold Junction.plain at hj
      split at hj
      · cases hj
      · cases hj
        split at h0
        · cases h0
        · split at h0
          · cases h0
          · cases h0; left; rfl
        · cases h0; right; rfl
        · cases h0
  · unfold strip at h0
    split at h0
    · cases h0
    · split at h0
      · cases h0
      · cases h0; cases hc

/-- helper -/
theorem reachable_valid {s : Stack T} (h : StackReachable s) : s.Valid := by
  obtain ⟨kind, js, a, b, ph, s0, cs, hj, h0, rfl⟩ := h
  obtain ⟨h1, -, -, h4⟩ := C34_constructor kind js a b ph
  obtain ⟨e1, -, -, -, -, e6, -⟩ := h4 s0 h0
  obtain ⟨h2, h3⟩ := h1.1 ⟨s0, h0⟩
  have hv : s0.Valid := ⟨by rw [e1]; exact h2, by rw [e1]; exact h3, .inl (by rw [e6]; rfl),
    by rw [e1]; exact fun j hjm => classic_layers (hj j hjm) (h3 j hjm)⟩
  clear h0 h1 h4 e1 e6
  induction cs generalizing s0 with
  | nil => exact hv
  | cons c cs ih => exact ih _ (hv.call c)

/-- helper -/
theorem getCoupling_gap {s : Stack T} {order : Nat} {c : T} (h : s.getCoupling order = .ok c) : c = gap s order := by
  unfold getCoupling at h
  unfold gap
  split at h
  · cases h
  · rename_i c' hc; cases h; rw [hc]; rfl
  · rename_i cs h1 h2
    split at h
    · rename_i c' hc'
      cases h
      have : s.couplingStrength.length ≠ 1 := by
        intro hl
        obtain ⟨x, hx⟩ := List.length_eq_one_iff.1 hl
        exact h2 x hx
      rw [if_neg this, List.getD_eq_getElem?_getD, hc']; rfl
    · cases h

/-- C34: whatever was called, the stack still has at least two junctions, all classic with one or two layers, and
every gap has a coupling. -/
theorem C34_reachable (s : Stack T) (h : StackReachable s) :
    2 ≤ s.junctions.length ∧ (∀ j ∈ s.junctions, j.mrMode = .CLASSIC ∧ (j.layers.length = 1 ∨ j.layers.length = 2)) ∧
    ∀ k, k + 1 < s.junctions.length → s.getCoupling k = .ok (gap s k) := by
  have hv := reachable_valid h
  refine ⟨hv.two, fun j hj => ⟨hv.classic j hj, hv.layers j hj⟩, fun k hk => ?_⟩
  have : ∃ c, s.getCoupling k = .ok c := by
    unfold getCoupling
    split
    · rename_i hc
      have h1 := hv.couplings
      have h2 := hv.two
      rw [hc] at h1
      simp only [List.length_nil] at h1
      omega
    · exact ⟨_, rfl⟩
    · rename_i cs h1 h2
      have hc := hv.couplings
      rcases hc with hc | hc
      · obtain ⟨x, hx⟩ := List.length_eq_one_iff.1 hc
        exact absurd hx (h2 x)
      · rw [List.getElem?_eq_getElem (by omega)]; exact ⟨_, rfl⟩
  obtain ⟨c, hc⟩ := this
  rw [hc, getCoupling_gap hc]

/-! ### C36 -/

/-- helper -/
theorem series_sum (rs : List ℝ) (a : ℝ) : rs.foldl (· + ·) a = a + rs.sum := by
  induction rs generalizing a with
  | nil => simp
  | cons r rs ih => simp only [List.foldl_cons, ih, List.sum_cons]; ring

/-- helper -/
theorem parallel_sum (rs : List ℝ) (a : ℝ) : rs.foldl (fun a r => a + 1 / r) a = a + (rs.map fun r => 1 / r).sum := by
  induction rs generalizing a with
  | nil => simp
  | cons r rs ih => simp only [List.foldl_cons, ih, List.map_cons, List.sum_cons]; ring

/-- C36: in series resistances add, in parallel conductances add. -/
theorem C36_formula (s : Stack ℝ) (rs : List ℝ) :
    (s.kind = .series → s.calculateStackResistance rs = rs.sum) ∧
    (s.kind = .parallel → s.calculateStackResistance rs = 1 / (rs.map fun r => 1 / r).sum) := by
  unfold calculateStackResistance
  constructor
  · intro h
    simp only [h, series_sum, Scalar.ofNat_real]; norm_num
  · intro h
    simp only [h]
    simp only [Scalar.ofNat_real, Nat.cast_zero, Nat.cast_one]
    rw [parallel_sum]; norm_num

/-- helper -/
theorem sum_bounds (rs : List ℝ) (a b : ℝ) (h : ∀ r ∈ rs, a ≤ r ∧ r ≤ b) : rs.length * a ≤ rs.sum ∧ rs.sum ≤ rs.length * b := by
  induction rs with
  | nil => simp
  | cons r rs ih =>
    simp only [List.mem_cons, forall_eq_or_imp] at h
    obtain ⟨i1, i2⟩ := ih h.2
    simp only [List.length_cons, List.sum_cons, Nat.cast_add, Nat.cast_one]
    constructor <;> nlinarith [h.1.1, h.1.2]

/-- C36: with every member between `a > 0` and `b` the stack lies between `n a` and `n b` in series, between `a / n` and
`b / n` in parallel; with at least two members the series value exceeds the parallel one. -/
theorem C36_bounds (s p : Stack ℝ) (hs : s.kind = .series) (hp : p.kind = .parallel) (rs : List ℝ) (a b : ℝ) (ha : 0 < a)
    (hn : rs ≠ []) (h : ∀ r ∈ rs, a ≤ r ∧ r ≤ b) :
    (rs.length * a ≤ s.calculateStackResistance rs ∧ s.calculateStackResistance rs ≤ rs.length * b) ∧
    (a / rs.length ≤ p.calculateStackResistance rs ∧ p.calculateStackResistance rs ≤ b / rs.length) ∧
    (2 ≤ rs.length → p.calculateStackResistance rs < s.calculateStackResistance rs) := by
  rw [(C36_formula s rs).1 hs, (C36_formula p rs).2 hp]
  obtain ⟨r0, hr0⟩ := List.exists_mem_of_ne_nil rs hn
  have hb : 0 < b := lt_of_lt_of_le ha ((h r0 hr0).1.trans (h r0 hr0).2)
  have hlen : (0 : ℝ) < rs.length := by exact_mod_cast List.length_pos_iff.2 hn
  obtain ⟨s1, s2⟩ := sum_bounds rs a b h
  have hrec := sum_bounds (rs.map fun r => 1 / r) (1 / b) (1 / a) (by
    intro x hx
    obtain ⟨r, hr, rfl⟩ := List.mem_map.1 hx
    obtain ⟨h1, h2⟩ := h r hr
    exact ⟨one_div_le_one_div_of_le (lt_of_lt_of_le ha h1) h2, one_div_le_one_div_of_le ha h1⟩)
  rw [List.length_map] at hrec
  set S := (rs.map fun r => 1 / r).sum
  have hS : 0 < S := lt_of_lt_of_le (by positivity) hrec.1
  refine ⟨⟨s1, s2⟩, ⟨?_, ?_⟩, fun h2 => ?_⟩
  · rw [div_le_div_iff₀ hlen hS]
    have := mul_le_mul_of_nonneg_left hrec.2 ha.le
    rw [show a * (rs.length * (1 / a)) = rs.length by field_simp] at this
    linarith
  · rw [div_le_div_iff₀ hS hlen]
    have := mul_le_mul_of_nonneg_left hrec.1 hb.le
    rw [show b * (rs.length * (1 / b)) = rs.length by field_simp] at this
    linarith
  · -- compare with the smallest member through one of them
    have h1 : (1 : ℝ) / S ≤ r0 := by
      rw [div_le_iff₀ hS]
      have : 1 / r0 ≤ S := List.single_le_sum (by
        intro x hx
        obtain ⟨r, hr, rfl⟩ := List.mem_map.1 hx
        have := lt_of_lt_of_le ha (h r hr).1
        positivity) _ (List.mem_map.2 ⟨r0, hr0, rfl⟩)
      have hr0p := lt_of_lt_of_le ha (h r0 hr0).1
      have := mul_le_mul_of_nonneg_left this hr0p.le
      rw [show r0 * (1 / r0) = 1 by field_simp] at this
      exact this
    have h3 : r0 < rs.sum := by
      obtain ⟨i, hi, rfl⟩ := List.getElem_of_mem hr0
      have hp : rs.sum = rs[i] + (rs.eraseIdx i).sum := by
        have := (List.getElem_cons_eraseIdx_perm hi).sum_eq
        rw [List.sum_cons] at this; exact this.symm
      have he : (rs.eraseIdx i).length * a ≤ (rs.eraseIdx i).sum :=
        (sum_bounds _ a b (fun r hr => h r (List.mem_of_mem_eraseIdx hr))).1
      have hl : 1 ≤ (rs.eraseIdx i).length := by rw [List.length_eraseIdx_of_lt hi]; omega
      have : (1 : ℝ) ≤ (rs.eraseIdx i).length := by exact_mod_cast hl
      nlinarith
    linarith

end Stack
