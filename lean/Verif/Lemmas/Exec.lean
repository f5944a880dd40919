import Verif.Model.Exec
import Mathlib.Tactic.Ring

/-! Helper lemmas on `Out.traverse`. -/

namespace Out
variable {σ α β : Type}

@[ext] theorem ext' {x y : Out σ α} (h1 : x.res = y.res) (h2 : x.st = y.st) : x = y := by
  cases x; cases y; simp_all

theorem eq_ok_iff (x : Out σ α) (a : α) (s : σ) : x = .ok a s ↔ x.res = .ok a ∧ x.st = s := by
  cases x; simp [ok]

theorem bind_eq_ok {x : Out σ α} {f : α → σ → Out σ β} {b : β} {s : σ} (h : x.bind f = .ok b s) :
    ∃ a s', x = .ok a s' ∧ f a s' = .ok b s := by
  rcases x with ⟨r, s'⟩
  cases r with
  | error e => simp [bind, ok] at h
  | ok a => exact ⟨a, s', rfl, h⟩

theorem traverse_ok (f : Nat → σ → Out σ β) {i : Nat} {as : List σ} {bs : List β} {as' : List σ}
    (h : traverse f i as = .ok bs as') :
    bs.length = as.length ∧ as'.length = as.length ∧
      ∀ k a, as[k]? = some a → ∃ b a', bs[k]? = some b ∧ as'[k]? = some a' ∧ f (i + k) a = .ok b a' := by
  induction as generalizing i bs as' with
  | nil => simp only [traverse, ok, Out.mk.injEq, Except.ok.injEq] at h; obtain ⟨rfl, rfl⟩ := h; simp
  | cons a as ih =>
    simp only [traverse] at h
    rcases hf : f i a with ⟨r, a'⟩
    cases r with
    | error e => rw [hf] at h; simp [ok] at h
    | ok b =>
      rw [hf] at h
      simp only at h
      rcases ht : traverse f (i + 1) as with ⟨r2, as2⟩
      cases r2 with
      | error e => rw [ht] at h; simp [ok] at h
      | ok bs2 =>
        rw [ht] at h
        simp only [ok, Out.mk.injEq, Except.ok.injEq] at h
        obtain ⟨rfl, rfl⟩ := h
        obtain ⟨h1, h2, h3⟩ := ih ht
        refine ⟨by simp [h1], by simp [h2], ?_⟩
        intro k x hk
        cases k with
        | zero => simp at hk; subst hk; exact ⟨b, a', by simp, by simp, by simpa [ok] using hf⟩
        | succ k =>
          simp at hk
          obtain ⟨y, z, hy, hz, hyz⟩ := h3 k x hk
          refine ⟨y, z, by simpa using hy, by simpa using hz, ?_⟩
          rw [← hyz]; congr 1; ring

/-- If every call succeeds with known results, so does the loop. -/
theorem traverse_of_ok (f : Nat → σ → Out σ β) (g : Nat → σ → β) (h : Nat → σ → σ) (i : Nat) (as : List σ)
    (hf : ∀ k a, as[k]? = some a → f (i + k) a = .ok (g (i + k) a) (h (i + k) a)) :
    traverse f i as = .ok (as.mapIdx (fun k a => g (i + k) a)) (as.mapIdx (fun k a => h (i + k) a)) := by
  induction as generalizing i with
  | nil => simp [traverse]
  | cons a as ih =>
    have h0 := hf 0 a (by simp)
    simp only [Nat.add_zero] at h0
    have := ih (i + 1) (fun k x hk => by
      have := hf (k + 1) x (by simpa using hk)
      rwa [show i + 1 + k = i + (k + 1) by ring])
    simp only [traverse, h0, ok] at this ⊢
    rw [this]
    simp only [List.mapIdx_cons, Nat.add_zero, Out.mk.injEq, Except.ok.injEq, List.cons.injEq, true_and]
    constructor <;> (apply congrArg (fun q => List.mapIdx q as); funext k x; rw [show i + 1 + k = i + (k + 1) by ring])

/-- If some call fails, whatever the element, the loop does not succeed. -/
theorem traverse_err (f : Nat → σ → Out σ β) (i : Nat) (as : List σ) (k : Nat) (a : σ) (hk : as[k]? = some a)
    (hf : ∀ b a', f (i + k) a ≠ .ok b a') (bs : List β) (as' : List σ) : traverse f i as ≠ .ok bs as' := by
  intro h
  obtain ⟨-, -, h3⟩ := traverse_ok f h
  obtain ⟨b, a', -, -, hh⟩ := h3 k a hk
  exact hf b a' hh

/-- Loops over related lists with related bodies behave alike. -/
theorem traverse_length (f : Nat → σ → Out σ β) (i : Nat) (as : List σ) :
    (traverse f i as).st.length = as.length := by
  induction as generalizing i with
  | nil => rfl
  | cons a as ih =>
    simp only [traverse]
    rcases f i a with ⟨r, a'⟩
    cases r with
    | error e => simp
    | ok b =>
      have := ih (i + 1)
      rcases h : traverse f (i + 1) as with ⟨r2, as2⟩
      rw [h] at this
      cases r2 <;> simpa using this

/-- A property kept by every call is kept by the loop, whether or not it throws. -/
theorem traverse_keeps (P : σ → σ → Prop) (hr : ∀ a, P a a) (f : Nat → σ → Out σ β)
    (hf : ∀ i a, P a (f i a).st) (i : Nat) (as : List σ) :
    List.Forall₂ P as (traverse f i as).st := by
  have hrr : ∀ l : List σ, List.Forall₂ P l l := fun l => by
    induction l with
    | nil => exact .nil
    | cons a l ih => exact .cons (hr a) ih
  induction as generalizing i with
  | nil => exact .nil
  | cons a as ih =>
    simp only [traverse]
    have h0 := hf i a
    rcases hfa : f i a with ⟨r, a'⟩
    rw [hfa] at h0
    cases r with
    | error e => exact .cons h0 (hrr as)
    | ok b =>
      have := ih (i + 1)
      rcases h : traverse f (i + 1) as with ⟨r2, as2⟩
      rw [h] at this
      cases r2 <;> exact .cons h0 this

end Out
