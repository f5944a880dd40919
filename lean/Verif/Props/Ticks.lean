import Verif.Model.Noise
import Verif.Spec.Ticks
import Verif.Lemmas.Vec

/-! # C46, C47: noise generators -/

set_option linter.unusedSectionVars false

open Spec

/-! ## C46 -/

namespace BufferedAlphaNoise
variable {T : Type} [Scalar T]

/-- helper: the state after `n` ticks -/
theorem after_eq {B : Nat} {scale : T} {fills : Nat → Nat → T} {b : BufferedAlphaNoise T} (h : mk' B scale fills = .ok b) (n : Nat) :
    (after tick b n).bufferSize = B ∧ (after tick b n).scale = scale ∧ (after tick b n).fills = fills ∧
    (after tick b n).counter = n % B ∧ (after tick b n).refills = (n + B - 1) / B ∧
    (n % B ≠ 0 → (after tick b n).result = fills (n / B)) := by
  have hB : 0 < B := by
    rcases Nat.eq_zero_or_pos B with rfl | h0
    · simp [mk'] at h
    · exact h0
  rw [mk', if_neg hB.ne'] at h
  simp only [Except.ok.injEq] at h
  subst h
  induction n with
  | zero => exact ⟨rfl, rfl, rfl, by simp [after], by simp only [after]; rw [Nat.zero_add, Nat.div_eq_of_lt (by omega)], by simp⟩
  | succ n ih =>
    obtain ⟨h1, h2, h3, h4, h5, h6⟩ := ih
    have hlt : n % B < B := Nat.mod_lt _ hB
    have hdm := Nat.div_add_mod n B
    have hdiv : (n + 1 + B - 1) / B = n / B + 1 := by
      rw [show n + 1 + B - 1 = n + B by omega, Nat.add_div_right _ hB]
    have hmod : (n % B + 1) % B = (n + 1) % B := by rw [Nat.add_mod, Nat.mod_mod, ← Nat.add_mod]
    have hres : (n + 1) % B ≠ 0 → (n + 1) / B = n / B := by
      intro h
      rcases Nat.lt_or_ge (n % B + 1) B with h' | h'
      · rw [Nat.div_eq_of_lt_le]
        · rw [Nat.mul_comm]; omega
        · rw [Nat.succ_mul, Nat.mul_comm]; omega
      · exfalso; apply h
        rw [← hmod, show n % B + 1 = B by omega, Nat.mod_self]
    simp only [after, tick, fillBuffer]
    by_cases h0 : n % B = 0
    · rw [if_pos (h4.trans h0)]
      have hr : (n + B - 1) / B = n / B := by
        rw [Nat.div_eq_of_lt_le]
        · rw [Nat.mul_comm]; omega
        · rw [Nat.succ_mul, Nat.mul_comm]; omega
      refine ⟨h1, h2, h3, by simp only [h1, h4, hmod], by simp only [h5, hr, hdiv], fun hn => ?_⟩
      simp only [h3, h5, hr, hres hn]
    · rw [if_neg (by rw [h4]; exact h0)]
      have hr : (n + B - 1) / B = n / B + 1 := by
        rw [Nat.div_eq_of_lt_le]
        · rw [Nat.succ_mul, Nat.mul_comm]; omega
        · rw [Nat.succ_mul, Nat.succ_mul, Nat.mul_comm]; omega
      refine ⟨h1, h2, h3, by simp only [h1, h4, hmod], by rw [h5, hr, hdiv], fun hn => ?_⟩
      rw [h6 h0, hres hn]

/-- C46: tick number `n` of a fresh generator returns entry `n mod size` of fill number `n / size`, times the scale: every entry
of every fill once, in order. For every scalar type. -/
theorem C46_nth {B : Nat} {scale : T} {fills : Nat → Nat → T} {b : BufferedAlphaNoise T} (h : mk' B scale fills = .ok b) (n : Nat) :
    output tick b n = scale * fills (n / B) (n % B) := by
  obtain ⟨h1, h2, h3, h4, h5, h6⟩ := after_eq h n
  have hB : 0 < B := by
    rcases Nat.eq_zero_or_pos B with rfl | h0
    · simp [mk'] at h
    · exact h0
  simp only [output, tick, fillBuffer]
  by_cases h0 : n % B = 0
  · rw [if_pos (h4.trans h0)]
    have hdm := Nat.div_add_mod n B
    have hr : (n + B - 1) / B = n / B := by
      rw [Nat.div_eq_of_lt_le]
      · rw [Nat.mul_comm]; omega
      · rw [Nat.succ_mul, Nat.mul_comm]; omega
    simp only [h2, h3, h4, h5, hr]
  · rw [if_neg (by rw [h4]; exact h0), h2, h4, h6 h0]

/-- C46: the position read is always inside the buffer, and the buffer is filled exactly before ticks 0, size, 2*size, ... -/
theorem C46_refills {B : Nat} {scale : T} {fills : Nat → Nat → T} {b : BufferedAlphaNoise T} (h : mk' B scale fills = .ok b) (n : Nat) :
    (after tick b n).counter < B ∧
    (after tick b (n + 1)).refills = (after tick b n).refills + (if B ∣ n then 1 else 0) := by
  have hB : 0 < B := by
    rcases Nat.eq_zero_or_pos B with rfl | h0
    · simp [mk'] at h
    · exact h0
  obtain ⟨-, -, -, h4, -, -⟩ := after_eq h n
  refine ⟨by rw [h4]; exact Nat.mod_lt _ hB, ?_⟩
  simp only [after, tick, fillBuffer]
  rw [h4]
  by_cases h0 : n % B = 0
  · rw [if_pos h0, if_pos (Nat.dvd_of_mod_eq_zero h0)]
  · rw [if_neg h0, if_neg fun hd => h0 (Nat.mod_eq_zero_of_dvd hd)]; rfl

/-- C46: a fill requested by the caller (the method is public) does not move the position. -/
theorem C46_manual_fill (b : BufferedAlphaNoise T) : b.fillBuffer.counter = b.counter ∧
    (b.counter ≠ 0 → b.fillBuffer.tick.1 = b.scale * b.fills b.refills b.counter) := by
  refine ⟨rfl, fun h => ?_⟩
  simp [tick, fillBuffer, h]

/-- C46, last clause refuted: a buffer of size zero is not rejected by an exception; the constructor writes outside its buffer. Every other size is
accepted. -/
theorem C46_zero_refuted (scale : T) (fills : Nat → Nat → T) :
    (mk' 0 scale fills : Except Err (BufferedAlphaNoise T)) = .error .ub ∧
    ∀ B, 0 < B → ∃ b, mk' B scale fills = .ok b := by
  refine ⟨rfl, fun B hB => ?_⟩
  rw [mk', if_neg hB.ne']
  exact ⟨_, rfl⟩

/-- A buffer of three entries: ticks 0 to 6 (twice refilled). -/
example : ∃ b : BufferedAlphaNoise ℝ, mk' (T := ℝ) 3 2 (fun k i => 10 * k + i) = .ok b ∧ output tick b 4 = 2 * 11 ∧ (after tick b 7).refills = 3 := by
  obtain ⟨b, h⟩ := (C46_zero_refuted (2 : ℝ) (fun k i => 10 * k + i)).2 3 (by norm_num)
  refine ⟨b, h, ?_, ?_⟩
  · rw [C46_nth h]; norm_num
  · rw [(after_eq h 7).2.2.2.2.1]

end BufferedAlphaNoise

/-! ## C47 -/

namespace VectorAlphaNoise

section
variable {T : Type} [Scalar T]

/-- C47: the axis "none" is rejected, for every buffer size. -/
theorem C47_axis_none (B : Nat) (scale : T) (sx sy sz : Nat → Nat → T) :
    (mk' B scale .none sx sy sz : Except Err (VectorAlphaNoise T)) = .error .badAxis := rfl

/-- helper: generators of the components after `n` ticks -/
theorem after_comp (v : VectorAlphaNoise T) (n : Nat) : (after tickVector v n).scale = v.scale ∧
    (after tickVector v n).normalized = v.normalized ∧ (after tickVector v n).cx = after Ticker.tick v.cx n ∧
    (after tickVector v n).cy = after Ticker.tick v.cy n ∧ (after tickVector v n).cz = after Ticker.tick v.cz n := by
  induction n with
  | zero => exact ⟨rfl, rfl, rfl, rfl, rfl⟩
  | succ n ih =>
    obtain ⟨h1, h2, h3, h4, h5⟩ := ih
    simp only [after, tickVector]
    exact ⟨h1, h2, by rw [h3], by rw [h4], by rw [h5]⟩

theorem ticker_none (n : Nat) : output Ticker.tick (none : Ticker T) n = 0 := by
  have : ∀ n, after Ticker.tick (none : Ticker T) n = none := by
    intro n
    induction n with
    | zero => rfl
    | succ n ih => simp only [after, ih]; rfl
  rw [output, this]; rfl

theorem ticker_some (b : BufferedAlphaNoise T) (n : Nat) : output Ticker.tick (some b) n = output BufferedAlphaNoise.tick b n := by
  have : ∀ n, after Ticker.tick (some b) n = some (after BufferedAlphaNoise.tick b n) := by
    intro n
    induction n with
    | zero => rfl
    | succ n ih => simp only [after, ih]; rfl
  rw [output, this]; rfl

theorem output_eq (v : VectorAlphaNoise T) (n : Nat) : output tickVector v n =
    (if v.normalized then (CVec.mk (output Ticker.tick v.cx n) (output Ticker.tick v.cy n) (output Ticker.tick v.cz n)).normalize
      else ⟨output Ticker.tick v.cx n, output Ticker.tick v.cy n, output Ticker.tick v.cz n⟩) * v.scale := by
  obtain ⟨h1, h2, h3, h4, h5⟩ := after_comp v n
  simp only [output, tickVector, h1, h2, h3, h4, h5]

/-- helper -/
theorem size_pos {B : Nat} {scale : T} {axis : Axis} {sx sy sz : Nat → Nat → T} {v : VectorAlphaNoise T}
    (h : mk' B scale axis sx sy sz = .ok v) : B ≠ 0 := by
  rintro rfl
  cases axis <;> simp [mk', BufferedAlphaNoise.mk', bind, Except.bind] at h

end

/-- C47: the previous sample after two or more calls is the sample before the last one: times the scale it is what the last but one
call returned. -/
theorem C47_previous (v : VectorAlphaNoise ℝ) : v.tickVector.2.tickVector.2.getPrevSample * v.scale = v.tickVector.1 := rfl

/-- C47: noise along one axis: call number `n` returns the coloured sample times the scale on that axis and zero on the others. -/
theorem C47_one_axis {B : Nat} {scale : ℝ} {sx sy sz : Nat → Nat → ℝ} (n : Nat) :
    (∀ v, mk' B scale .xaxis sx sy sz = .ok v → output tickVector v n = ⟨sx (n / B) (n % B) * scale, 0, 0⟩) ∧
    (∀ v, mk' B scale .yaxis sx sy sz = .ok v → output tickVector v n = ⟨0, sy (n / B) (n % B) * scale, 0⟩) ∧
    (∀ v, mk' B scale .zaxis sx sy sz = .ok v → output tickVector v n = ⟨0, 0, sz (n / B) (n % B) * scale⟩) := by
  refine ⟨fun v h => ?_, fun v h => ?_, fun v h => ?_⟩ <;>
  · have hB := size_pos h
    rw [mk'] at h
    simp only [BufferedAlphaNoise.mk', if_neg hB, bind, Except.bind, Except.ok.injEq] at h
    subst h
    rw [output_eq]
    simp only [ticker_none, ticker_some]
    rw [BufferedAlphaNoise.C46_nth (B := B) (by rw [BufferedAlphaNoise.mk', if_neg hB])]
    ext <;> simp

/-- C47: noise on all axes points along the three coloured samples and has magnitude `|scale|`; it is zero exactly when the three samples
are. -/
theorem C47_all_axes {B : Nat} {scale : ℝ} {sx sy sz : Nat → Nat → ℝ} {v : VectorAlphaNoise ℝ} (h : mk' B scale .all sx sy sz = .ok v)
    (n : Nat) :
    let s : CVec ℝ := ⟨sx (n / B) (n % B), sy (n / B) (n % B), sz (n / B) (n % B)⟩
    (s = .zero → output tickVector v n = .zero) ∧
    (s ≠ .zero → (output tickVector v n).length = |scale| ∧ output tickVector v n = s * (scale / s.length)) := by
  have hB := size_pos h
  rw [mk'] at h
  simp only [BufferedAlphaNoise.mk', if_neg hB, bind, Except.bind, Except.ok.injEq] at h
  subst h
  rw [output_eq]
  simp only [ticker_some]
  rw [BufferedAlphaNoise.C46_nth (B := B) (fills := sx) (by rw [BufferedAlphaNoise.mk', if_neg hB]),
    BufferedAlphaNoise.C46_nth (B := B) (fills := sy) (by rw [BufferedAlphaNoise.mk', if_neg hB]),
    BufferedAlphaNoise.C46_nth (B := B) (fills := sz) (by rw [BufferedAlphaNoise.mk', if_neg hB])]
  simp only [if_true, Scalar.ofNat_real, Nat.cast_one, one_mul]
  generalize (⟨sx (n / B) (n % B), sy (n / B) (n % B), sz (n / B) (n % B)⟩ : CVec ℝ) = s
  refine ⟨?_, fun hs => ?_⟩
  · rintro rfl; rw [CVec.normalize_zero]; ext <;> simp
  · have h1 := CVec.normSq_normalize s hs
    have hl : s.length ≠ 0 := by rwa [Ne, CVec.length_eq_zero]
    refine ⟨?_, ?_⟩
    · rw [CVec.length_eq, show (s.normalize * scale).normSq = scale ^ 2 * s.normalize.normSq by
        simp only [CVec.normSq, CVec.mulr_x, CVec.mulr_y, CVec.mulr_z]; ring, h1, mul_one, Real.sqrt_sq_eq_abs]
    · simp only [CVec.normalize, Scalar.eqb_real, Scalar.ofNat_real, Nat.cast_zero, decide_eq_true_eq, if_neg hl]
      ext <;> simp <;> ring

/-- A noise on all axes whose samples are not all zero. -/
example : ∃ v : VectorAlphaNoise ℝ, mk' (T := ℝ) 4 2 .all (fun _ i => i) (fun _ _ => 0) (fun _ _ => 0) = .ok v ∧
    (output tickVector v 5).length = 2 := by
  refine ⟨_, rfl, ?_⟩
  rw [((C47_all_axes (B := 4) (scale := (2 : ℝ)) (sx := fun _ i => i) (sy := fun _ _ => 0) (sz := fun _ _ => 0) rfl 5).2 ?_).1]
  · norm_num
  · rw [Ne, CVec.eq_zero_iff]; norm_num

end VectorAlphaNoise

namespace OneFNoise

/-- every entry of the state is in the unit interval and there is one per source -/
def Sound (n : OneFNoise ℝ) : Prop := n.state.length = n.sources ∧ ∀ x ∈ n.state, 0 ≤ x ∧ x ≤ 1

theorem sound_refresh {n : Nat} {st : List ℝ} (h : st.length = n ∧ ∀ x ∈ st, 0 ≤ x ∧ x ≤ 1) (ps : List (Nat × Nat)) (draws : Nat → ℝ)
    (hd : ∀ i, 0 ≤ draws i ∧ draws i ≤ 1) :
    (ps.foldl (fun s p => refresh s p.1 (draws p.2)) st).length = n ∧
      ∀ x ∈ ps.foldl (fun s p => refresh s p.1 (draws p.2)) st, 0 ≤ x ∧ x ≤ 1 := by
  induction ps generalizing st with
  | nil => exact h
  | cons p ps ih =>
    refine ih ⟨by simp [refresh, h.1], fun x hx => ?_⟩
    rcases List.mem_or_eq_of_mem_set hx with hx | rfl
    · exact h.2 x hx
    · exact hd _

theorem total_bounds {st : List ℝ} (h : ∀ x ∈ st, 0 ≤ x ∧ x ≤ 1) : 0 ≤ total st ∧ total st ≤ st.length := by
  have e : ∀ (st : List ℝ) (a : ℝ), st.foldl (· + ·) a = a + st.sum := by
    intro st
    induction st with
    | nil => intro a; simp
    | cons x st ih => intro a; rw [List.foldl_cons, ih, List.sum_cons]; ring
  have e' : total st = st.sum := by rw [total, e]; simp
  rw [e']
  clear e e'
  induction st with
  | nil => simp
  | cons x st ih =>
    obtain ⟨h1, h2⟩ := h x (by simp)
    obtain ⟨h3, h4⟩ := ih fun y hy => h y (by simp [hy])
    rw [List.sum_cons, List.length_cons]
    push_cast
    constructor <;> linarith

/-- C47: 1/f noise from uniform draws: whatever the geometric trials are and however `tick` and `tick2` are mixed, the state keeps one
entry per source, all in [0, 1], and every value returned is `scale` times a number in `[0, sources]`. -/
theorem C47_oneF {sources : Nat} {scale : ℝ} {d0 : Nat → ℝ} (hd0 : ∀ i, 0 ≤ d0 i ∧ d0 i ≤ 1)
    (calls : List (Bool × List Nat × (Nat → ℝ))) (hc : ∀ c ∈ calls, ∀ i, 0 ≤ c.2.2 i ∧ c.2.2 i ≤ 1) (b : Bool) (trials : List Nat)
    (draws : Nat → ℝ) (hd : ∀ i, 0 ≤ draws i ∧ draws i ≤ 1) :
    let n := calls.foldl (fun n c => if c.1 then (n.tick c.2.1 c.2.2).2 else (n.tick2 c.2.1 c.2.2).2) (mk' sources scale d0)
    let r := if b then n.tick trials draws else n.tick2 trials draws
    r.2.state.length = sources ∧ (∀ x ∈ r.2.state, 0 ≤ x ∧ x ≤ 1) ∧ ∃ y : ℝ, 0 ≤ y ∧ y ≤ sources ∧ r.1 = scale * y := by
  have step : ∀ (n : OneFNoise ℝ) (b : Bool) (trials : List Nat) (draws : Nat → ℝ), (∀ i, 0 ≤ draws i ∧ draws i ≤ 1) →
      Sound n ∧ n.sources = sources ∧ n.scale = scale →
      let r := if b then n.tick trials draws else n.tick2 trials draws
      (Sound r.2 ∧ r.2.sources = sources ∧ r.2.scale = scale) ∧ ∃ y : ℝ, 0 ≤ y ∧ y ≤ sources ∧ r.1 = scale * y := by
    rintro n b trials draws hd ⟨hs, rfl, rfl⟩
    cases b
    · have h := sound_refresh hs ((trials.filter (· < n.sources)).zipIdx) draws hd
      have ht := total_bounds h.2
      rw [h.1] at ht
      exact ⟨⟨h, rfl, rfl⟩, _, ht.1, ht.2, rfl⟩
    · have h := sound_refresh hs ((((trials.mergeSort (· ≤ ·)).dedup).filter (· < n.sources)).zipIdx) draws hd
      have ht := total_bounds h.2
      rw [h.1] at ht
      exact ⟨⟨h, rfl, rfl⟩, _, ht.1, ht.2, rfl⟩
  have h0 : Sound (mk' sources scale d0) ∧ (mk' sources scale d0).sources = sources ∧ (mk' sources scale d0).scale = scale := by
    refine ⟨⟨by simp [mk'], fun x hx => ?_⟩, rfl, rfl⟩
    simp only [mk', List.mem_map] at hx
    obtain ⟨i, -, rfl⟩ := hx
    exact hd0 i
  have hall : ∀ (calls : List (Bool × List Nat × (Nat → ℝ))) (n : OneFNoise ℝ), (∀ c ∈ calls, ∀ i, 0 ≤ c.2.2 i ∧ c.2.2 i ≤ 1) →
      (Sound n ∧ n.sources = sources ∧ n.scale = scale) →
      let n' := calls.foldl (fun n c => if c.1 then (n.tick c.2.1 c.2.2).2 else (n.tick2 c.2.1 c.2.2).2) n
      Sound n' ∧ n'.sources = sources ∧ n'.scale = scale := by
    intro calls
    induction calls with
    | nil => intro n _ h; exact h
    | cons c cs ih =>
      intro n hc h
      refine ih _ (fun c' hc' => hc c' (by simp [hc'])) ?_
      have := (step n c.1 c.2.1 c.2.2 (hc c (by simp)) h).1
      obtain ⟨b, t, d⟩ := c
      cases b <;> exact this
  obtain ⟨⟨h1, h2, h3⟩, h4⟩ := step _ b trials draws hd (hall calls _ hc h0)
  refine ⟨h1.1.trans h2, h1.2, h4⟩

/-- C47: a tick changes exactly the state entries named by the trials, each to a fresh draw; trials beyond the number of sources do
nothing. -/
theorem C47_oneF_touches {T : Type} [Scalar T] (n : OneFNoise T) (trials : List Nat) (draws : Nat → T) (i : Nat) (hi : i < n.state.length)
    (h : n.state.length = n.sources) :
    (i ∉ trials → (n.tick trials draws).2.state[i]? = n.state[i]? ∧ (n.tick2 trials draws).2.state[i]? = n.state[i]?) ∧
    (i ∈ trials → (∃ k < trials.length, (n.tick trials draws).2.state[i]? = some (draws k)) ∧
      ∃ k < trials.length, (n.tick2 trials draws).2.state[i]? = some (draws k)) := by
  have key : ∀ (ps : List Nat) (o : Nat) (st : List T),
      (i ∉ ps → ((ps.zipIdx o).foldl (fun s p => refresh s p.1 (draws p.2)) st)[i]? = st[i]?) ∧
      (i < st.length → i ∈ ps → ∃ k, o ≤ k ∧ k < o + ps.length ∧
        ((ps.zipIdx o).foldl (fun s p => refresh s p.1 (draws p.2)) st)[i]? = some (draws k)) := by
    intro ps
    induction ps with
    | nil => intro o st; exact ⟨fun _ => rfl, fun _ h => absurd h (by simp)⟩
    | cons p ps ih =>
      intro o st
      rw [List.zipIdx_cons, List.foldl_cons]
      obtain ⟨a, b⟩ := ih (o + 1) (refresh st p (draws o))
      refine ⟨fun hn => ?_, fun hl hm => ?_⟩
      · simp only [List.mem_cons, not_or] at hn
        rw [a hn.2, refresh, List.getElem?_set_ne (Ne.symm hn.1)]
      · by_cases hp : i ∈ ps
        · obtain ⟨k, h1, h2, h3⟩ := b (by simpa [refresh] using hl) hp
          exact ⟨k, by omega, by simp only [List.length_cons]; omega, h3⟩
        · have : i = p := by simpa [hp] using hm
          subst this
          refine ⟨o, le_refl _, by simp, ?_⟩
          rw [a hp, refresh, List.getElem?_set_self hl]
  have hlen : ((trials.mergeSort (· ≤ ·)).dedup.filter (· < n.sources)).length ≤ trials.length := by
    refine (List.length_filter_le _ _).trans ((List.Sublist.length_le (List.dedup_sublist _)).trans ?_)
    simp
  have hmem : i ∈ (trials.mergeSort (· ≤ ·)).dedup.filter (· < n.sources) ↔ i ∈ trials := by
    simp [List.mem_mergeSort, ← h, hi]
  have hmem2 : i ∈ trials.filter (· < n.sources) ↔ i ∈ trials := by simp [← h, hi]
  refine ⟨fun hn => ⟨(key _ 0 _).1 (by rwa [hmem]), (key _ 0 _).1 (by rwa [hmem2])⟩, fun hm => ⟨?_, ?_⟩⟩
  · obtain ⟨k, -, h2, h3⟩ := (key _ 0 _).2 hi (hmem.2 hm)
    exact ⟨k, by omega, h3⟩
  · obtain ⟨k, -, h2, h3⟩ := (key _ 0 _).2 hi (hmem2.2 hm)
    have := List.length_filter_le (· < n.sources) trials
    exact ⟨k, by omega, h3⟩

end OneFNoise

namespace PinkNoise

theorem blend {rmax p s r : ℝ} (h0 : 0 ≤ p) (h1 : p ≤ 1) (hs : 0 ≤ s ∧ s ≤ rmax) (hr : 0 ≤ r ∧ r ≤ rmax) :
    0 ≤ p * (s - r) + r ∧ p * (s - r) + r ≤ rmax := by
  obtain ⟨a, b⟩ := hs
  obtain ⟨c, d⟩ := hr
  have e : p * (s - r) + r = p * s + (1 - p) * r := by ring
  rw [e]
  constructor
  · have := mul_nonneg h0 a; have := mul_nonneg (sub_nonneg.2 h1) c; linarith
  · have := mul_le_mul_of_nonneg_left b h0; have := mul_le_mul_of_nonneg_left d (sub_nonneg.2 h1); linarith

/-- all stages are in the range of `rand()` -/
def Bounded (rmax : ℝ) (p : PinkNoise ℝ) : Prop := (0 ≤ p.s0 ∧ p.s0 ≤ rmax) ∧ (0 ≤ p.s1 ∧ p.s1 ≤ rmax) ∧ 0 ≤ p.s2 ∧ p.s2 ≤ rmax

theorem tick_bounded {rmax : ℝ} (hr : 0 < rmax) {p : PinkNoise ℝ} (hp : Bounded rmax p) {r0 r1 r2 : ℝ} (h0 : 0 ≤ r0 ∧ r0 ≤ rmax)
    (h1 : 0 ≤ r1 ∧ r1 ≤ rmax) (h2 : 0 ≤ r2 ∧ r2 ≤ rmax) :
    Bounded rmax (p.tick r0 r1 r2 rmax).2 ∧ |(p.tick r0 r1 r2 rmax).1| ≤ 0.02109238 + 0.07113478 + 0.68873558 := by
  obtain ⟨ha, hb, hc⟩ := hp
  have a := blend (p := 0.3190) (by norm_num) (by norm_num) ha h0
  have b := blend (p := 0.7756) (by norm_num) (by norm_num) hb h1
  have c := blend (p := 0.9613) (by norm_num) (by norm_num) hc h2
  have e : p.tick r0 r1 r2 rmax = ((0.02109238 * (0.3190 * (p.s0 - r0) + r0) + 0.07113478 * (0.7756 * (p.s1 - r1) + r1) +
      0.68873558 * (0.9613 * (p.s2 - r2) + r2)) * (2 / rmax) - (0.02109238 + 0.07113478 + 0.68873558),
      ⟨0.3190 * (p.s0 - r0) + r0, 0.7756 * (p.s1 - r1) + r1, 0.9613 * (p.s2 - r2) + r2⟩) := by
    simp only [tick, Scalar.ofSci_real_true]; norm_num
  rw [e]
  generalize 0.3190 * (p.s0 - r0) + r0 = x at a ⊢
  generalize 0.7756 * (p.s1 - r1) + r1 = y at b ⊢
  generalize 0.9613 * (p.s2 - r2) + r2 = z at c ⊢
  refine ⟨⟨a, b, c⟩, ?_⟩
  have hx : 0 ≤ x / rmax ∧ x / rmax ≤ 1 := ⟨div_nonneg a.1 hr.le, (div_le_one hr).2 a.2⟩
  have hy : 0 ≤ y / rmax ∧ y / rmax ≤ 1 := ⟨div_nonneg b.1 hr.le, (div_le_one hr).2 b.2⟩
  have hz : 0 ≤ z / rmax ∧ z / rmax ≤ 1 := ⟨div_nonneg c.1 hr.le, (div_le_one hr).2 c.2⟩
  have e2 : (0.02109238 * x + 0.07113478 * y + 0.68873558 * z) * (2 / rmax) - (0.02109238 + 0.07113478 + 0.68873558) =
      2 * (0.02109238 * (x / rmax) + 0.07113478 * (y / rmax) + 0.68873558 * (z / rmax)) - (0.02109238 + 0.07113478 + 0.68873558) := by
    ring
  dsimp only
  rw [e2, abs_le]
  constructor <;> linarith [hx.1, hx.2, hy.1, hy.2, hz.1, hz.2]

/-- C47: the pink noise generator: whatever `rand()` returns in `[0, RAND_MAX]`, every value is within `± (A0 + A1 + A2)`. -/
theorem C47_pink {rmax : ℝ} (hr : 0 < rmax) (rs : Nat → ℝ × ℝ × ℝ)
    (hrs : ∀ n, (0 ≤ (rs n).1 ∧ (rs n).1 ≤ rmax) ∧ (0 ≤ (rs n).2.1 ∧ (rs n).2.1 ≤ rmax) ∧ 0 ≤ (rs n).2.2 ∧ (rs n).2.2 ≤ rmax) (n : Nat) :
    let step := fun (s : Nat × PinkNoise ℝ) =>
      ((s.2.tick (rs s.1).1 (rs s.1).2.1 (rs s.1).2.2 rmax).1, (s.1 + 1, (s.2.tick (rs s.1).1 (rs s.1).2.1 (rs s.1).2.2 rmax).2))
    |output step (0, init) n| ≤ 0.02109238 + 0.07113478 + 0.68873558 := by
  intro step
  have inv : ∀ n, Bounded rmax (after step (0, init) n).2 := by
    intro n
    induction n with
    | zero => simp [after, init, hr.le, Bounded]
    | succ n ih =>
      obtain ⟨d, e, f⟩ := hrs (after step (0, init) n).1
      exact (tick_bounded hr ih d e f).1
  obtain ⟨d, e, f⟩ := hrs (after step (0, init) n).1
  exact (tick_bounded hr (inv n) d e f).2

end PinkNoise
