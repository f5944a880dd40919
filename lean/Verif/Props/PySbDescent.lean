import Verif.Model.PySb
import Verif.Spec.PySb

/-!
# Claim C57: the gradient descents of the Smit-Beljers solver

Both loops, for every gradient function, start and limits: the positions follow Adam (AMSGrad), the loop stops where it should, and
the gradient is computed once more than the position is updated.
-/

set_option linter.unusedSectionVars false

namespace SB
open Scalar

private theorem getD_zip {f : ℝ → ℝ → ℝ} {a b : List ℝ} {c : Nat} (ha : c < a.length) (hb : c < b.length) :
    (List.zipWith f a b).getD c 0 = f (a.getD c 0) (b.getD c 0) := by
  simp [List.getD_eq_getElem?_getD, List.getElem?_zipWith, List.getElem?_eq_getElem ha, List.getElem?_eq_getElem hb]

private theorem getD_map' {f : ℝ → ℝ} {a : List ℝ} {c : Nat} (ha : c < a.length) :
    (a.map f).getD c 0 = f (a.getD c 0) := by
  simp [List.getD_eq_getElem?_getD, List.getElem?_eq_getElem ha]

private theorem fold_sq (x : List ℝ) (s : ℝ) :
    x.foldl (fun s a => s + Scalar.powi a 2) s = s + ∑ c ∈ Finset.range x.length, x.getD c 0 ^ 2 := by
  induction x generalizing s with
  | nil => simp
  | cons a x ih =>
    rw [List.foldl_cons, ih, List.length_cons, Finset.sum_range_succ']
    simp; ring

private theorem norm_eq {p q : List ℝ} {n : Nat} (hp : p.length = n) (hq : q.length = n) :
    fastNorm (List.zipWith (· - ·) p q) = Spec.gapNorm n p q := by
  unfold fastNorm Spec.gapNorm
  rw [fold_sq, sqrt_real]
  congr 1
  rw [ofNat_real]
  simp only [List.length_zipWith, hp, hq, min_self, Nat.cast_zero, zero_add]
  exact Finset.sum_congr rfl fun c hc => by
    rw [getD_zip (by rw [hp]; exact Finset.mem_range.mp hc) (by rw [hq]; exact Finset.mem_range.mp hc)]

private theorem decayed_succ (β : ℝ) (g : ℕ → ℝ) (k : ℕ) :
    Spec.decayed β g (k + 1) = β * Spec.decayed β g k + (1 - β) * g k := by
  unfold Spec.decayed
  rw [Finset.sum_range_succ]
  have h : ∑ i ∈ Finset.range k, β ^ (k + 1 - 1 - i) * g i = β * ∑ i ∈ Finset.range k, β ^ (k - 1 - i) * g i := by
    rw [Finset.mul_sum]
    refine Finset.sum_congr rfl fun i hi => ?_
    have := Finset.mem_range.mp hi
    have e : k + 1 - 1 - i = (k - 1 - i) + 1 := by omega
    rw [e, pow_succ]; ring
  rw [h]; simp; ring

/-- Position and the two moments after a number of updates. -/
private noncomputable def adamSt (grad : List ℝ → List ℝ) (r : Rates ℝ) (p0 : List ℝ) : Nat → List ℝ × List ℝ × List ℝ
  | 0 => (p0, p0.map (fun _ => 0), p0.map (fun _ => 0))
  | k + 1 =>
    let s := adamSt grad r p0 k
    let g := grad s.1
    let m := List.zipWith (fun a b => r.beta1 * a + (1.0 - r.beta1) * b) s.2.1 g
    let v := List.zipWith (fun a b => r.beta2 * a + (1.0 - r.beta2) * Scalar.powi b 2) s.2.2 g
    let mHat := m.map (· / (1.0 - Scalar.powi r.beta1 (k + 1)))
    let vHat := v.map (· / (1.0 - Scalar.powi r.beta2 (k + 1)))
    (List.zipWith (fun p q => p - q) s.1 (List.zipWith (fun a b => r.rate * a / (Scalar.sqrt b + 1e-12)) mHat vHat), m, v)

private theorem adam_st {grad : List ℝ → List ℝ} {r : Rates ℝ} {p0 : List ℝ} {n : Nat} (hn : p0.length = n)
    (hg : ∀ p : List ℝ, p.length = n → (grad p).length = n) (k : Nat) :
    ((adamSt grad r p0 k).1.length = n ∧ (adamSt grad r p0 k).2.1.length = n ∧ (adamSt grad r p0 k).2.2.length = n) ∧
    ∀ c < n, (adamSt grad r p0 k).2.1.getD c 0 = Spec.decayed r.beta1 (fun i => (grad (adamSt grad r p0 i).1).getD c 0) k ∧
      (adamSt grad r p0 k).2.2.getD c 0 = Spec.decayed r.beta2 (fun i => (grad (adamSt grad r p0 i).1).getD c 0 ^ 2) k := by
  induction k with
  | zero =>
    refine ⟨by simp [adamSt, hn], fun c hc => ?_⟩
    constructor <;> (unfold adamSt; rw [getD_map' (by omega)]; simp [Spec.decayed])
  | succ k ih =>
    obtain ⟨⟨h1, h2, h3⟩, h⟩ := ih
    have hgl := hg _ h1
    refine ⟨by simp [adamSt, h1, h2, h3, hgl], fun c hc => ?_⟩
    obtain ⟨hm, hv⟩ := h c hc
    constructor
    · rw [decayed_succ, ← hm]
      show (List.zipWith _ _ _).getD c 0 = _
      rw [getD_zip (by omega) (by omega)]
      norm_num
    · rw [decayed_succ, ← hv]
      show (List.zipWith _ _ _).getD c 0 = _
      rw [getD_zip (by omega) (by omega)]
      norm_num

private theorem adam_follows {grad : List ℝ → List ℝ} {r : Rates ℝ} {p0 : List ℝ} {n : Nat} (hn : p0.length = n)
    (hg : ∀ p : List ℝ, p.length = n → (grad p).length = n) :
    Spec.FollowsAdam n grad r.rate r.beta1 r.beta2 fun k => (adamSt grad r p0 k).1 := by
  intro k c hc
  obtain ⟨⟨h1, h2, h3⟩, -⟩ := adam_st (r := r) hn hg k
  obtain ⟨⟨l1, l2, l3⟩, h⟩ := adam_st (r := r) hn hg (k + 1)
  obtain ⟨hm, hv⟩ := h c hc
  dsimp only
  rw [← hm, ← hv]
  show (List.zipWith _ _ _).getD c 0 = _
  have e1 : (adamSt grad r p0 (k + 1)).2.1 = List.zipWith (fun a b => r.beta1 * a + (1.0 - r.beta1) * b) (adamSt grad r p0 k).2.1
    (grad (adamSt grad r p0 k).1) := rfl
  have e2 : (adamSt grad r p0 (k + 1)).2.2 = List.zipWith (fun a b => r.beta2 * a + (1.0 - r.beta2) * Scalar.powi b 2)
    (adamSt grad r p0 k).2.2 (grad (adamSt grad r p0 k).1) := rfl
  rw [← e1, ← e2, getD_zip (by omega) (by simp [l2, l3, hc]), getD_zip (by simp [l2, hc]) (by simp [l3, hc]),
    getD_map' (by omega), getD_map' (by omega)]
  norm_num

private theorem adam_loop {grad : List ℝ → List ℝ} {r : Rates ℝ} {p0 : List ℝ} {n : Nat} (hn : p0.length = n)
    (hg : ∀ p : List ℝ, p.length = n → (grad p).length = n) (fuel : Nat) :
    ∀ k : ℕ, (r.maxSteps - k).toNat = fuel → ∃ K : ℕ, k ≤ K ∧
      adamLoop grad r k (adamSt grad r p0 k).1 (adamSt grad r p0 k).2.1 (adamSt grad r p0 k).2.2 =
        ((adamSt grad r p0 K).1, K - k + 1) ∧
      (∀ i : ℕ, k ≤ i → i < K → (i : ℤ) < r.maxSteps ∧
        r.tol ≤ Spec.gapNorm n (adamSt grad r p0 i).1 (adamSt grad r p0 (i + 1)).1) ∧
      (r.maxSteps ≤ K ∨ Spec.gapNorm n (adamSt grad r p0 K).1 (adamSt grad r p0 (K + 1)).1 < r.tol) := by
  induction fuel using Nat.strong_induction_on with
  | _ fuel ih =>
    intro k hk
    have l1 := (adam_st (r := r) hn hg k).1.1
    have l2 := (adam_st (r := r) hn hg (k + 1)).1.1
    rw [adamLoop.eq_def]
    dsimp only
    by_cases hs : r.maxSteps < ((k + 1 : Nat) : ℤ)
    · rw [if_pos hs]
      exact ⟨k, le_refl _, by simp, fun i h1 h2 => by omega, .inl (by omega)⟩
    · rw [if_neg hs]
      have hnorm : fastNorm (List.zipWith (· - ·) (adamSt grad r p0 k).1 (adamSt grad r p0 (k + 1)).1) =
        Spec.gapNorm n (adamSt grad r p0 k).1 (adamSt grad r p0 (k + 1)).1 := norm_eq l1 l2
      by_cases ht : Spec.gapNorm n (adamSt grad r p0 k).1 (adamSt grad r p0 (k + 1)).1 < r.tol
      · refine ⟨k, le_refl _, ?_, fun i h1 h2 => by omega, .inr ht⟩
        rw [← hnorm] at ht
        rw [if_pos (by rw [ltb_real]; exact decide_eq_true ht)]
        simp
      · obtain ⟨K, hK, he, hc, hst⟩ := ih ((r.maxSteps - (k + 1 : Nat)).toNat) (by omega) (k + 1) rfl
        refine ⟨K, by omega, ?_, fun i h1 h2 => ?_, hst⟩
        · have hb : Scalar.ltb (fastNorm (List.zipWith (· - ·) (adamSt grad r p0 k).1 (adamSt grad r p0 (k + 1)).1)) r.tol ≠ true := by
            rw [ltb_real, hnorm]; simpa using ht
          refine Eq.trans (if_neg hb) ?_
          have : adamLoop grad r (k + 1) (adamSt grad r p0 (k + 1)).1 (adamSt grad r p0 (k + 1)).2.1
            (adamSt grad r p0 (k + 1)).2.2 = ((adamSt grad r p0 K).1, K - (k + 1) + 1) := he
          have h2 : K - k + 1 = K - (k + 1) + 1 + 1 := by omega
          rw [h2]
          exact congrArg (fun q : List ℝ × Nat => (q.1, q.2 + 1)) this
        · rcases Nat.lt_or_ge k i with h | h
          · exact hc i h h2
          · have : i = k := by omega
            subst this
            exact ⟨by omega, not_lt.mp ht⟩

/-- C57: Adam descent, for every gradient function (that returns one entry per coordinate), start, perturbation and limits: there is a
sequence of positions that starts at the (perturbed) start and follows Adam; the descent returns the position at the first index where
the updates are used up or the next update is below the tolerance, having computed one gradient more than that index. -/
theorem C57_adam (grad : List ℝ → List ℝ) (r : Rates ℝ) (init noise : List ℝ) (perturbation : ℝ) (n : ℕ)
    (hn : init.length = n) (hz : noise.length = n) (hg : ∀ p : List ℝ, p.length = n → (grad p).length = n) :
    ∃ (p : ℕ → List ℝ) (K : ℕ),
      p 0 = (if perturbation = 0 then init else List.zipWith (· + ·) init noise) ∧
      Spec.FollowsAdam n grad r.rate r.beta1 r.beta2 p ∧ Spec.StopsAt n r.maxSteps r.tol p K ∧
      adam grad r init perturbation noise = (p K, K + 1) := by
  set p0 := if perturbation = 0 then init else List.zipWith (· + ·) init noise with hp0
  have hl : p0.length = n := by rw [hp0]; split_ifs <;> simp [hn, hz]
  obtain ⟨K, -, he, hc, hs⟩ := adam_loop (r := r) hl hg _ 0 rfl
  refine ⟨fun k => (adamSt grad r p0 k).1, K, ?_, adam_follows hl hg, ⟨fun k hk => hc k (by omega) hk, hs⟩, ?_⟩
  · rfl
  · rw [show K + 1 = K - 0 + 1 by omega]
    refine Eq.trans ?_ he
    unfold adam
    simp only [eqb_real, ofNat_real, Nat.cast_zero, decide_eq_true_eq]
    rfl

/-- C57: hence at most `maxSteps` updates and one gradient more, whatever the gradient does. -/
theorem C57_adam_count (grad : List ℝ → List ℝ) (r : Rates ℝ) (init noise : List ℝ) (perturbation : ℝ) (n : ℕ)
    (hn : init.length = n) (hz : noise.length = n) (hg : ∀ p : List ℝ, p.length = n → (grad p).length = n) :
    (adam grad r init perturbation noise).2 ≤ r.maxSteps.toNat + 1 := by
  obtain ⟨p, K, -, -, ⟨h, -⟩, he⟩ := C57_adam grad r init noise perturbation n hn hz hg
  rw [he]
  rcases Nat.eq_zero_or_pos K with h0 | h0
  · subst h0; simp
  · have := (h (K - 1) (by omega)).1
    show K + 1 ≤ _
    omega

/-- C57: a start where the gradient vanishes is returned after one gradient, for every positive tolerance. -/
theorem C57_adam_rest (grad : List ℝ → List ℝ) (r : Rates ℝ) (init : List ℝ) (noise : List ℝ) (hz : noise.length = init.length)
    (hg : ∀ p : List ℝ, p.length = init.length → (grad p).length = init.length)
    (h0 : ∀ c, (grad init).getD c 0 = 0) (ht : 0 < r.tol) :
    adam grad r init 0 noise = (init, 1) := by
  obtain ⟨p, K, hp, hf, ⟨hb, -⟩, he⟩ := C57_adam grad r init noise 0 init.length rfl hz hg
  have h00 : p 0 = init := by rw [hp, if_pos rfl]
  have hK : K = 0 := by
    by_contra hK
    have h := (hb 0 (by omega)).2
    have hz0 : Spec.gapNorm init.length (p 0) (p 1) = 0 := by
      unfold Spec.gapNorm
      rw [Finset.sum_eq_zero, Real.sqrt_zero]
      intro c hc
      have := hf 0 c (Finset.mem_range.mp hc)
      simp only [zero_add] at this
      rw [this]
      simp only [Spec.decayed, Finset.sum_range_one, h00, h0 c]
      simp
    rw [hz0] at h
    linarith
  rw [he, hK, h00]

/-! ## AMSGrad -/

/-- Position, the two moments and the largest second moment after a number of updates. -/
private noncomputable def amsSt (grad : List ℝ → List ℝ) (r : Rates ℝ) (p0 : List ℝ) : Nat → List ℝ × List ℝ × List ℝ × List ℝ
  | 0 => (p0, p0.map (fun _ => 0), p0.map (fun _ => 0), p0.map (fun _ => 0))
  | k + 1 =>
    let s := amsSt grad r p0 k
    let g := grad s.1
    let m := List.zipWith (fun a b => r.beta1 * a + (1.0 - r.beta1) * b) s.2.1 g
    let v := List.zipWith (fun a b => r.beta2 * a + (1.0 - r.beta2) * Scalar.powi b 2) s.2.2.1 g
    let vHat := List.zipWith (fun a b => if Scalar.ltb a b then b else a) s.2.2.2 v
    (List.zipWith (fun p q => p - q) s.1 (List.zipWith (fun a b => r.rate * a / (Scalar.sqrt b + 1e-12)) m vHat), m, v, vHat)

private theorem ams_st {grad : List ℝ → List ℝ} {r : Rates ℝ} {p0 : List ℝ} {n : Nat} (hn : p0.length = n)
    (hg : ∀ p : List ℝ, p.length = n → (grad p).length = n) (k : Nat) :
    ((amsSt grad r p0 k).1.length = n ∧ (amsSt grad r p0 k).2.1.length = n ∧ (amsSt grad r p0 k).2.2.1.length = n ∧
      (amsSt grad r p0 k).2.2.2.length = n) ∧
    ∀ c < n, (amsSt grad r p0 k).2.1.getD c 0 = Spec.decayed r.beta1 (fun i => (grad (amsSt grad r p0 i).1).getD c 0) k ∧
      (amsSt grad r p0 k).2.2.1.getD c 0 = Spec.decayed r.beta2 (fun i => (grad (amsSt grad r p0 i).1).getD c 0 ^ 2) k ∧
      IsGreatest (insert 0 ((fun j => Spec.decayed r.beta2 (fun i => (grad (amsSt grad r p0 i).1).getD c 0 ^ 2) (j + 1)) ''
        Set.Iio k)) ((amsSt grad r p0 k).2.2.2.getD c 0) := by
  induction k with
  | zero =>
    refine ⟨by simp [amsSt, hn], fun c hc => ⟨?_, ?_, ?_⟩⟩
    · unfold amsSt; rw [getD_map' (by omega)]; simp [Spec.decayed]
    · unfold amsSt; rw [getD_map' (by omega)]; simp [Spec.decayed]
    · unfold amsSt; rw [getD_map' (by omega)]; simp
  | succ k ih =>
    obtain ⟨⟨h1, h2, h3, h4⟩, h⟩ := ih
    have hgl := hg _ h1
    refine ⟨by simp [amsSt, h1, h2, h3, h4, hgl], fun c hc => ?_⟩
    obtain ⟨hm, hv, hw⟩ := h c hc
    have hv' : (amsSt grad r p0 (k + 1)).2.2.1.getD c 0 =
        Spec.decayed r.beta2 (fun i => (grad (amsSt grad r p0 i).1).getD c 0 ^ 2) (k + 1) := by
      rw [decayed_succ, ← hv]
      show (List.zipWith _ _ _).getD c 0 = _
      rw [getD_zip (by omega) (by omega)]
      norm_num
    refine ⟨?_, hv', ?_⟩
    · rw [decayed_succ, ← hm]
      show (List.zipWith _ _ _).getD c 0 = _
      rw [getD_zip (by omega) (by omega)]
      norm_num
    · have hlen : (amsSt grad r p0 (k + 1)).2.2.1.length = n := by simp [amsSt, h3, hgl]
      have he : (amsSt grad r p0 (k + 1)).2.2.2.getD c 0 =
          max ((amsSt grad r p0 k).2.2.2.getD c 0) ((amsSt grad r p0 (k + 1)).2.2.1.getD c 0) := by
        show (List.zipWith _ _ (amsSt grad r p0 (k + 1)).2.2.1).getD c 0 = _
        rw [getD_zip (by omega) (by omega), ltb_real]
        simp only [decide_eq_true_eq]
        split_ifs with hlt
        · exact (max_eq_right hlt.le).symm
        · exact (max_eq_left (not_lt.mp hlt)).symm
      rw [he, hv']
      constructor
      · rcases max_cases ((amsSt grad r p0 k).2.2.2.getD c 0)
          (Spec.decayed r.beta2 (fun i => (grad (amsSt grad r p0 i).1).getD c 0 ^ 2) (k + 1)) with ⟨hx, -⟩ | ⟨hx, -⟩
        · rw [hx]
          rcases hw.1 with h0 | ⟨j, hj, hje⟩
          · exact .inl h0
          · exact .inr ⟨j, Set.mem_Iio.mpr (Nat.lt_succ_of_lt (Set.mem_Iio.mp hj)), hje⟩
        · rw [hx]
          exact .inr ⟨k, Set.mem_Iio.mpr (Nat.lt_succ_self k), rfl⟩
      · rintro y (rfl | ⟨j, hj, rfl⟩)
        · exact le_max_of_le_left (hw.2 (.inl rfl))
        · rcases Nat.lt_or_ge j k with hjk | hjk
          · exact le_max_of_le_left (hw.2 (.inr ⟨j, hjk, rfl⟩))
          · have : j = k := by have := Set.mem_Iio.mp hj; omega
            subst this
            exact le_max_right _ _

private theorem ams_follows {grad : List ℝ → List ℝ} {r : Rates ℝ} {p0 : List ℝ} {n : Nat} (hn : p0.length = n)
    (hg : ∀ p : List ℝ, p.length = n → (grad p).length = n) :
    Spec.FollowsAmsgrad n grad r.rate r.beta1 r.beta2 fun k => (amsSt grad r p0 k).1 := by
  intro k c hc
  obtain ⟨⟨h1, h2, h3, h4⟩, -⟩ := ams_st (r := r) hn hg k
  obtain ⟨⟨l1, l2, l3, l4⟩, h⟩ := ams_st (r := r) hn hg (k + 1)
  obtain ⟨hm, -, hw⟩ := h c hc
  refine ⟨(amsSt grad r p0 (k + 1)).2.2.2.getD c 0, ?_, ?_⟩
  · have e : Set.Iic k = Set.Iio (k + 1) := by ext j; simp
    rw [e]; exact hw
  · dsimp only
    rw [← hm]
    show (List.zipWith _ _ (List.zipWith _ (amsSt grad r p0 (k + 1)).2.1 (amsSt grad r p0 (k + 1)).2.2.2)).getD c 0 = _
    rw [getD_zip (by omega) (by simp [l2, l4, hc]), getD_zip (by omega) (by omega)]
    norm_num

private theorem ams_loop {grad : List ℝ → List ℝ} {r : Rates ℝ} {p0 : List ℝ} {n : Nat} (hn : p0.length = n)
    (hg : ∀ p : List ℝ, p.length = n → (grad p).length = n) (fuel : Nat) :
    ∀ k : ℕ, (r.maxSteps - k).toNat = fuel → ∃ K : ℕ, k ≤ K ∧
      amsgradLoop grad r k (amsSt grad r p0 k).1 (amsSt grad r p0 k).2.1 (amsSt grad r p0 k).2.2.1
        (amsSt grad r p0 k).2.2.2 =
        ((amsSt grad r p0 K).1, K - k + 1) ∧
      (∀ i : ℕ, k ≤ i → i < K → (i : ℤ) < r.maxSteps ∧
        r.tol ≤ Spec.gapNorm n (amsSt grad r p0 i).1 (amsSt grad r p0 (i + 1)).1) ∧
      (r.maxSteps ≤ K ∨ Spec.gapNorm n (amsSt grad r p0 K).1 (amsSt grad r p0 (K + 1)).1 < r.tol) := by
  induction fuel using Nat.strong_induction_on with
  | _ fuel ih =>
    intro k hk
    have l1 := (ams_st (r := r) hn hg k).1.1
    have l2 := (ams_st (r := r) hn hg (k + 1)).1.1
    rw [amsgradLoop.eq_def]
    dsimp only
    by_cases hs : r.maxSteps < ((k + 1 : Nat) : ℤ)
    · rw [if_pos hs]
      exact ⟨k, le_refl _, by simp, fun i h1 h2 => by omega, .inl (by omega)⟩
    · rw [if_neg hs]
      have hnorm : fastNorm (List.zipWith (· - ·) (amsSt grad r p0 k).1 (amsSt grad r p0 (k + 1)).1) =
        Spec.gapNorm n (amsSt grad r p0 k).1 (amsSt grad r p0 (k + 1)).1 := norm_eq l1 l2
      by_cases ht : Spec.gapNorm n (amsSt grad r p0 k).1 (amsSt grad r p0 (k + 1)).1 < r.tol
      · refine ⟨k, le_refl _, ?_, fun i h1 h2 => by omega, .inr ht⟩
        rw [← hnorm] at ht
        rw [if_pos (by rw [ltb_real]; exact decide_eq_true ht)]
        simp
      · obtain ⟨K, hK, he, hc, hst⟩ := ih ((r.maxSteps - (k + 1 : Nat)).toNat) (by omega) (k + 1) rfl
        refine ⟨K, by omega, ?_, fun i h1 h2 => ?_, hst⟩
        · have hb : Scalar.ltb (fastNorm (List.zipWith (· - ·) (amsSt grad r p0 k).1 (amsSt grad r p0 (k + 1)).1)) r.tol ≠ true := by
            rw [ltb_real, hnorm]; simpa using ht
          refine Eq.trans (if_neg hb) ?_
          have : amsgradLoop grad r (k + 1) (amsSt grad r p0 (k + 1)).1 (amsSt grad r p0 (k + 1)).2.1
            (amsSt grad r p0 (k + 1)).2.2.1 (amsSt grad r p0 (k + 1)).2.2.2 = ((amsSt grad r p0 K).1, K - (k + 1) + 1) := he
          have h2 : K - k + 1 = K - (k + 1) + 1 + 1 := by omega
          rw [h2]
          exact congrArg (fun q : List ℝ × Nat => (q.1, q.2 + 1)) this
        · rcases Nat.lt_or_ge k i with h | h
          · exact hc i h h2
          · have : i = k := by omega
            subst this
            exact ⟨by omega, not_lt.mp ht⟩

/-- C57: AMSGrad descent, for every gradient function (that returns one entry per coordinate), start, perturbation and limits: there is a
sequence of positions that starts at the (perturbed) start and follows AMSGrad; the descent returns the position at the first index where
the updates are used up or the next update is below the tolerance, having computed one gradient more than that index. -/
theorem C57_amsgrad (grad : List ℝ → List ℝ) (r : Rates ℝ) (init noise : List ℝ) (perturbation : ℝ) (n : ℕ)
    (hn : init.length = n) (hz : noise.length = n) (hg : ∀ p : List ℝ, p.length = n → (grad p).length = n) :
    ∃ (p : ℕ → List ℝ) (K : ℕ),
      p 0 = (if perturbation = 0 then init else List.zipWith (· + ·) init noise) ∧
      Spec.FollowsAmsgrad n grad r.rate r.beta1 r.beta2 p ∧ Spec.StopsAt n r.maxSteps r.tol p K ∧
      amsgrad grad r init perturbation noise = (p K, K + 1) := by
  set p0 := if perturbation = 0 then init else List.zipWith (· + ·) init noise with hp0
  have hl : p0.length = n := by rw [hp0]; split_ifs <;> simp [hn, hz]
  obtain ⟨K, -, he, hc, hs⟩ := ams_loop (r := r) hl hg _ 0 rfl
  refine ⟨fun k => (amsSt grad r p0 k).1, K, ?_, ams_follows hl hg, ⟨fun k hk => hc k (by omega) hk, hs⟩, ?_⟩
  · rfl
  · rw [show K + 1 = K - 0 + 1 by omega]
    refine Eq.trans ?_ he
    unfold amsgrad
    simp only [eqb_real, ofNat_real, Nat.cast_zero, decide_eq_true_eq]
    rfl

/-- C57: hence at most `maxSteps` updates and one gradient more, whatever the gradient does. -/
theorem C57_amsgrad_count (grad : List ℝ → List ℝ) (r : Rates ℝ) (init noise : List ℝ) (perturbation : ℝ) (n : ℕ)
    (hn : init.length = n) (hz : noise.length = n) (hg : ∀ p : List ℝ, p.length = n → (grad p).length = n) :
    (amsgrad grad r init perturbation noise).2 ≤ r.maxSteps.toNat + 1 := by
  obtain ⟨p, K, -, -, ⟨h, -⟩, he⟩ := C57_amsgrad grad r init noise perturbation n hn hz hg
  rw [he]
  rcases Nat.eq_zero_or_pos K with h0 | h0
  · subst h0; simp
  · have := (h (K - 1) (by omega)).1
    show K + 1 ≤ _
    omega

/-- C57: a start where the gradient vanishes is returned after one gradient, for every positive tolerance. -/
theorem C57_amsgrad_rest (grad : List ℝ → List ℝ) (r : Rates ℝ) (init : List ℝ) (noise : List ℝ) (hz : noise.length = init.length)
    (hg : ∀ p : List ℝ, p.length = init.length → (grad p).length = init.length)
    (h0 : ∀ c, (grad init).getD c 0 = 0) (ht : 0 < r.tol) :
    amsgrad grad r init 0 noise = (init, 1) := by
  obtain ⟨p, K, hp, hf, ⟨hb, -⟩, he⟩ := C57_amsgrad grad r init noise 0 init.length rfl hz hg
  have h00 : p 0 = init := by rw [hp, if_pos rfl]
  have hK : K = 0 := by
    by_contra hK
    have h := (hb 0 (by omega)).2
    have hz0 : Spec.gapNorm init.length (p 0) (p 1) = 0 := by
      unfold Spec.gapNorm
      rw [Finset.sum_eq_zero, Real.sqrt_zero]
      intro c hc
      obtain ⟨w, -, this⟩ := hf 0 c (Finset.mem_range.mp hc)
      simp only [zero_add] at this
      rw [this]
      simp only [Spec.decayed, Finset.sum_range_one, h00, h0 c]
      simp
    rw [hz0] at h
    linarith
  rw [he, hK, h00]

/-! ## Examples -/

/-- A quadratic valley in two coordinates. -/
private noncomputable def valley (p : List ℝ) : List ℝ := p.map (2 * ·)

/-- The hypotheses are met by a quadratic valley and a start off its bottom: the first step is computed, with tolerance 0 the descent
uses all its updates. -/
example : ∃ p : ℕ → List ℝ, p 0 = [1, -3] ∧ Spec.FollowsAdam 2 valley 1e-4 0.9 0.999 p ∧
    adam valley ⟨7, 0, 1e-4, 0.9, 0.999⟩ [1, -3] 0 [0, 0] = (p 7, 8) := by
  obtain ⟨p, K, h0, hf, ⟨hb, hs⟩, he⟩ := C57_adam valley ⟨7, 0, 1e-4, 0.9, 0.999⟩ [1, -3] [0, 0] 0 2 rfl rfl
    (fun p hp => by simpa [valley] using hp)
  have hK : K = 7 := by
    have h1 : ((7 : ℤ) ≤ K) := by
      rcases hs with h | h
      · exact h
      · exact absurd h (not_lt.mpr (Real.sqrt_nonneg _))
    have h2 : K ≤ 7 := by
      by_contra hlt
      have := (hb 7 (by omega)).1
      simp at this
    omega
  subst hK
  refine ⟨p, by simpa using h0, ?_, he⟩
  convert hf using 1

/-- The bottom of the valley is returned at once. -/
example : amsgrad valley ⟨1000, 1e-8, 1e-4, 0.9, 0.999⟩ [0, 0] 0 [0, 0] = ([0, 0], 1) :=
  C57_amsgrad_rest valley _ _ _ rfl (fun p hp => by simpa [valley] using hp)
    (fun c => by rcases c with _ | _ | c <;> simp [valley]) (by norm_num)

end SB
