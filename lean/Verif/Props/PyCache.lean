import Verif.Model.PyCache
import Std.Data.String.ToInt
import Mathlib.Data.Set.Function
import Mathlib.Algebra.Order.Floor.Ring

set_option linter.unusedSectionVars false

/-!
# C122: the caches of the Smit-Beljers solver

Specification: the results a program sees are those it would see if every call ran the method (`Spec.fresh`), whatever is edited
between the calls.
-/

namespace SB

namespace Spec
variable {S C K V : Type}

/-- The results of a program without a cache. -/
def fresh (run : S → C → Except Err V) : List (Act S C) → S → List (Except Err V)
  | [], _ => []
  | .edit f :: as, s => fresh run as (f s)
  | .call c :: as, s => run s c :: fresh run as s

/-- The calls of a program, each with the heap it is made on. -/
def calls : List (Act S C) → S → List (S × C)
  | [], _ => []
  | .edit f :: as, s => calls as (f s)
  | .call c :: as, s => (s, c) :: calls as s

/-- No two different keys of the program have the same hash. -/
def NoCollision (M : Cached S C K V) (as : List (Act S C)) (s : S) : Prop :=
  ∀ p ∈ calls as s, ∀ q ∈ calls as s, ∀ k l, M.text p.1 p.2 = some k → M.text q.1 q.2 = some l → M.hash k = M.hash l → k = l

/-- The program passes only arguments that have a hash. -/
def Hashable (M : Cached S C K V) (as : List (Act S C)) (s : S) : Prop := ∀ p ∈ calls as s, M.text p.1 p.2 ≠ none

end Spec

/-! ## Any cached method -/

section cached
variable {S C K V : Type} (M : Cached S C K V)

/-- Every entry is the result of a call in `Q`. -/
def Stored (Q : List (S × C)) (es : List (Entry C V)) : Prop :=
  ∀ e ∈ es, ∃ p ∈ Q, ∃ k, M.text p.1 p.2 = some k ∧ e.hash = M.hash k ∧ M.run p.1 p.2 = .ok e.value

theorem call_sound (Q : List (S × C)) (hh : ∀ p ∈ Q, ∀ q ∈ Q, ∀ k l, M.text p.1 p.2 = some k → M.text q.1 q.2 = some l →
      M.hash k = M.hash l → M.run p.1 p.2 = M.run q.1 q.2)
    (s : S) (c : C) (hc : (s, c) ∈ Q) (hk : M.text s c ≠ none) (es : List (Entry C V)) (he : Stored M Q es) :
    (M.call s c es).1 = M.run s c ∧ Stored M Q (M.call s c es).2 := by
  unfold Cached.call
  split
  · rename_i h
    exact absurd h hk
  rename_i k hk
  split
  · rename_i e hf
    have hm := List.mem_of_find?_eq_some hf
    have ha := List.find?_some hf
    obtain ⟨p, hp, l, h0, h1, h2⟩ := he e hm
    simp only [Cached.answers, Bool.and_eq_true, beq_iff_eq] at ha
    refine ⟨?_, ?_⟩
    · rw [← h2]
      exact hh p hp (s, c) hc l k h0 hk (h1.symm.trans ha.1)
    · intro e' h'
      rcases List.mem_cons.1 h' with rfl | h'
      · exact he _ hm
      · exact he _ (List.mem_of_mem_eraseP h')
  · split
    · rename_i err hr
      exact ⟨hr.symm, he⟩
    · rename_i v hr
      refine ⟨hr.symm, fun e h => ?_⟩
      rcases List.mem_cons.1 (List.mem_of_mem_take h) with rfl | h
      · exact ⟨(s, c), hc, k, hk, rfl, hr⟩
      · exact he e h

theorem session_sound (Q : List (S × C)) (hh : ∀ p ∈ Q, ∀ q ∈ Q, ∀ k l, M.text p.1 p.2 = some k → M.text q.1 q.2 = some l →
      M.hash k = M.hash l → M.run p.1 p.2 = M.run q.1 q.2) (hk : ∀ p ∈ Q, M.text p.1 p.2 ≠ none)
    (as : List (Act S C)) (s : S) (es : List (Entry C V)) (hq : ∀ p ∈ Spec.calls as s, p ∈ Q) (he : Stored M Q es) :
    (M.session as s es).1 = Spec.fresh M.run as s := by
  induction as generalizing s es with
  | nil => rfl
  | cons a as ih =>
    cases a with
    | edit f => exact ih (f s) es hq he
    | call c =>
      simp only [Spec.calls, List.mem_cons, forall_eq_or_imp] at hq
      obtain ⟨h1, h2⟩ := call_sound M Q hh s c hq.1 (hk _ hq.1) es he
      simp only [Cached.session, Spec.fresh]
      rw [h1, ih s _ hq.2 h2]

/-- C122: a cached method whose result is determined by the text of its arguments gives every program the results of the method
itself, whatever the program edits between the calls. -/
theorem C122_transparent (as : List (Act S C)) (s : S) (hk : Spec.Hashable M as s) (hn : Spec.NoCollision M as s)
    (ht : ∀ p ∈ Spec.calls as s, ∀ q ∈ Spec.calls as s, M.text p.1 p.2 = M.text q.1 q.2 → M.run p.1 p.2 = M.run q.1 q.2) :
    (M.session as s []).1 = Spec.fresh M.run as s :=
  session_sound M (Spec.calls as s) (fun p hp q hq k l h1 h2 h => ht p hp q hq (by rw [h1, h2, hn p hp q hq k l h1 h2 h])) hk as s []
    (fun _ h => h) (by simp [Stored])

/-- C122: the cache never holds more results than its size. -/
theorem C122_bounded (as : List (Act S C)) (s : S) : (M.session as s []).2.length ≤ M.size := by
  have : ∀ (as : List (Act S C)) (s : S) (es : List (Entry C V)), es.length ≤ M.size → (M.session as s es).2.length ≤ M.size := by
    intro as
    induction as with
    | nil => exact fun _ _ h => h
    | cons a as ih =>
      intro s es h
      cases a with
      | edit f => exact ih (f s) es h
      | call c =>
        refine ih s _ ?_
        change (M.call s c es).2.length ≤ M.size
        unfold Cached.call
        split
        · exact h
        split
        · rename_i e hf
          have hm := List.mem_of_find?_eq_some hf
          have := List.length_eraseP_of_mem hm (List.find?_some hf)
          have : 0 < es.length := List.length_pos_of_mem hm
          simp only [List.length_cons]
          omega
        · split
          · exact h
          · simp only [List.length_take, List.length_cons]; omega
  exact this as s [] (Nat.zero_le _)

theorem call_hit (s : S) (c : C) (e : Entry C V) {k : K} (hk : M.text s c = some k) (ha : M.answers s c (M.hash k) e = true) :
    (M.call s c [e]).1 = .ok e.value := by
  simp [Cached.call, hk, ha]

end cached

/-! ## Reading a text back -/

/-- The characters that end a number. -/
def Ends (c : Char) : Prop := c = ',' ∨ c = ')' ∨ c = ']'

/-- A text that can be read off from the front. -/
def Reads {α : Type} (A : Set α) (f : α → Text) : Prop :=
  ∀ a ∈ A, ∀ b ∈ A, ∀ x y : Text, f a ++ x = f b ++ y → a = b ∧ x = y

/-- A text that can be read up to the next `,`, `)` or `]`, and does not begin with one of them. -/
def ReadsTo {α : Type} (A : Set α) (f : α → Text) : Prop :=
  (∀ a ∈ A, ∃ c w, f a = c :: w ∧ ¬ Ends c) ∧
    ∀ a ∈ A, ∀ b ∈ A, ∀ (c d : Char) (x y : Text), Ends c → Ends d → f a ++ c :: x = f b ++ d :: y → a = b ∧ c = d ∧ x = y

namespace Spec
variable {T : Type}

/-- The numbers of a set are printed without `,`, `)`, `]`, and different ones differently. -/
def Faithful (N : Set T) (f : T → Text) : Prop := (∀ a ∈ N, f a ≠ [] ∧ ∀ c ∈ f a, ¬ Ends c) ∧ Set.InjOn f N

/-- Python prints the numbers of the set `N` faithfully, sympy those of `E`. -/
structure Exact (P : Printer T) (N E : Set T) : Prop where
  num : Faithful N P.num
  entry : Faithful E P.entry

/-- A vector with its numbers in a set. -/
def VecIn (N : Set T) : Set (VectorObj T) := {v | v.theta ∈ N ∧ v.phi ∈ N ∧ v.mag ∈ N}

/-- A column with its entries in a set. -/
def ColIn (E : Set T) : Set (CVec T) := {v | v.x ∈ E ∧ v.y ∈ E ∧ v.z ∈ E}

/-- A layer with its numbers in the sets. -/
def LayerIn (N E : Set T) : Set (Layer T) :=
  {l | l.thickness ∈ N ∧ l.Kv ∈ VecIn N ∧ l.Ks ∈ N ∧ l.Ms ∈ N ∧ l.Hdmi ∈ ColIn E ∧ l.Ndemag ∈ ColIn E ∧
    ∀ d, l.dyn = some d → d.alpha ∈ N ∧ d.torquePar ∈ N ∧ d.torquePerp ∈ N}

/-- A solver with its numbers in the sets, and with the dipole matrices its constructor made from the tensors. -/
structure Sound [Scalar T] (N E : Set T) (s : Held T) : Prop where
  layers : ∀ l ∈ s.solver.layers, l ∈ LayerIn N E
  J1 : ∀ j ∈ s.solver.J1, j ∈ N
  J2 : ∀ j ∈ s.solver.J2, j ∈ N
  H : ∀ h ∈ s.solver.H, h ∈ VecIn N
  ilD : ∀ d ∈ s.solver.ilD, d ∈ ColIn E
  tensors : ∀ ds ∈ s.ndipole, ∀ d ∈ ds, d.1 ∈ VecIn N ∧ d.2.1 ∈ VecIn N ∧ d.2.2 ∈ VecIn N
  dipole : s.solver.dipole = s.ndipole.map (·.map fun d => ⟨d.1.getCartesian, d.2.1.getCartesian, d.2.2.getCartesian⟩)

end Spec

theorem split_end (u v : Text) (hu : ∀ c ∈ u, ¬ Ends c) (hv : ∀ c ∈ v, ¬ Ends c) (c d : Char) (x y : Text) (hc : Ends c) (hd : Ends d)
    (h : u ++ c :: x = v ++ d :: y) : u = v ∧ c = d ∧ x = y := by
  induction u generalizing v with
  | nil =>
    cases v with
    | nil => simp only [List.nil_append, List.cons.injEq] at h; exact ⟨rfl, h.1, h.2⟩
    | cons e v =>
      simp only [List.nil_append, List.cons_append, List.cons.injEq] at h
      exact absurd (h.1 ▸ hc) (hv e (List.mem_cons_self))
  | cons a u ih =>
    cases v with
    | nil =>
      simp only [List.nil_append, List.cons_append, List.cons.injEq] at h
      exact absurd (h.1 ▸ hd) (hu a (List.mem_cons_self))
    | cons e v =>
      simp only [List.cons_append, List.cons.injEq] at h
      obtain ⟨h1, h2, h3⟩ := ih v (fun c hc => hu c (List.mem_cons_of_mem _ hc)) (fun c hc => hv c (List.mem_cons_of_mem _ hc)) h.2
      exact ⟨by rw [h.1, h1], h2, h3⟩

theorem readsTo_of_faithful {T : Type} {N : Set T} {f : T → Text} (h : Spec.Faithful N f) : ReadsTo N f := by
  refine ⟨fun a ha => ?_, fun a ha b hb c d x y hc hd e => ?_⟩
  · obtain ⟨h1, h2⟩ := h.1 a ha
    cases hf : f a with
    | nil => exact absurd hf h1
    | cons c w => exact ⟨c, w, rfl, h2 c (by rw [hf]; exact List.mem_cons_self)⟩
  · obtain ⟨h1, h2, h3⟩ := split_end (f a) (f b) (h.1 a ha).2 (h.1 b hb).2 c d x y hc hd e
    exact ⟨h.2 ha hb h1, h2, h3⟩

theorem ReadsTo.comma {α : Type} {A : Set α} {f : α → Text} (h : ReadsTo A f) {a b : α} (ha : a ∈ A) (hb : b ∈ A) {c : Char}
    (hc : Ends c) {x y : Text} (e : f a ++ c :: x = f b ++ c :: y) : a = b ∧ x = y := by
  obtain ⟨h1, -, h3⟩ := h.2 a ha b hb c c x y hc hc e
  exact ⟨h1, h3⟩

theorem Reads.to {α : Type} {A : Set α} {f : α → Text} (h : Reads A f) (hs : ∀ a ∈ A, ∃ c w, f a = c :: w ∧ ¬ Ends c) :
    ReadsTo A f := by
  refine ⟨hs, fun a ha b hb c d x y _ _ e => ?_⟩
  obtain ⟨h1, h2⟩ := h a ha b hb _ _ e
  simp only [List.cons.injEq] at h2
  exact ⟨h1, h2⟩

theorem ends_comma : Ends ',' := .inl rfl
theorem ends_paren : Ends ')' := .inr (.inl rfl)
theorem ends_bracket : Ends ']' := .inr (.inr rfl)

theorem items_reads {α : Type} {A : Set α} {f : α → Text} (h : ReadsTo A f) (l m : List α) (hl : ∀ a ∈ l, a ∈ A) (hm : ∀ a ∈ m, a ∈ A)
    (x y : Text) (e : items f l ++ x = items f m ++ y) : l = m ∧ x = y := by
  induction l generalizing m with
  | nil =>
    cases m with
    | nil => simpa [items] using e
    | cons b m =>
      obtain ⟨c, w, h1, h2⟩ := h.1 b (hm b List.mem_cons_self)
      exfalso
      cases m <;>
      · simp only [items, h1, List.cons_append, List.nil_append, List.cons.injEq] at e
        exact h2 (e.1 ▸ ends_bracket)
  | cons a l ih =>
    have ha := hl a List.mem_cons_self
    cases m with
    | nil =>
      obtain ⟨c, w, h1, h2⟩ := h.1 a ha
      exfalso
      cases l <;>
      · simp only [items, h1, List.cons_append, List.nil_append, List.cons.injEq] at e
        exact h2 (e.1 ▸ ends_bracket)
    | cons b m =>
      have hb := hm b List.mem_cons_self
      cases l with
      | nil =>
        cases m with
        | nil =>
          simp only [items, List.append_assoc, List.cons_append, List.nil_append] at e
          obtain ⟨h1, h2⟩ := h.comma ha hb ends_bracket e
          exact ⟨by rw [h1], h2⟩
        | cons b' m =>
          simp only [items, List.append_assoc, List.cons_append, List.nil_append] at e
          obtain ⟨-, h2, -⟩ := h.2 a ha b hb _ _ _ _ ends_bracket ends_comma e
          exact absurd h2 (by decide)
      | cons a' l =>
        cases m with
        | nil =>
          simp only [items, List.append_assoc, List.cons_append, List.nil_append] at e
          obtain ⟨-, h2, -⟩ := h.2 a ha b hb _ _ _ _ ends_comma ends_bracket e
          exact absurd h2 (by decide)
        | cons b' m =>
          simp only [items, List.append_assoc, List.cons_append] at e
          obtain ⟨h1, h2⟩ := h.comma ha hb ends_comma e
          simp only [List.cons.injEq, true_and] at h2
          obtain ⟨h3, h4⟩ := ih (b' :: m) (fun a h => hl a (List.mem_cons_of_mem _ h)) (fun a h => hm a (List.mem_cons_of_mem _ h)) h2
          exact ⟨by rw [h1, h3], h4⟩

theorem list_reads {α : Type} {A : Set α} {f : α → Text} (h : ReadsTo A f) : Reads {l | ∀ a ∈ l, a ∈ A} (listText f) := by
  intro l hl m hm x y e
  simp only [listText, List.cons_append, List.cons.injEq, true_and] at e
  exact items_reads h l m hl hm x y e

section texts
variable {T : Type} {P : Printer T} {N E : Set T}

theorem vector_reads (h : ReadsTo N P.num) : Reads (Spec.VecIn N) (vectorText P) := by
  rintro a ⟨a1, a2, a3⟩ b ⟨b1, b2, b3⟩ x y e
  simp only [vectorText, List.append_assoc, List.cons_append, List.nil_append, List.cons.injEq, true_and] at e
  obtain ⟨h1, e⟩ := h.comma a1 b1 ends_comma (List.append_cancel_left e)
  obtain ⟨h2, e⟩ := h.comma a2 b2 ends_comma (List.append_cancel_left e)
  obtain ⟨h3, e⟩ := h.comma a3 b3 ends_paren (List.append_cancel_left e)
  exact ⟨by cases a; cases b; simp_all, e⟩

theorem matrix_reads (h : ReadsTo E P.entry) : Reads (Spec.ColIn E) (matrixText P) := by
  rintro a ⟨a1, a2, a3⟩ b ⟨b1, b2, b3⟩ x y e
  simp only [matrixText, List.append_assoc, List.cons_append, List.cons.injEq, true_and] at e
  obtain ⟨h1, e⟩ := h.comma a1 b1 ends_bracket (List.append_cancel_left e)
  obtain ⟨h2, e⟩ := h.comma a2 b2 ends_bracket (List.append_cancel_left e)
  obtain ⟨h3, e⟩ := h.comma a3 b3 ends_bracket (List.append_cancel_left e)
  exact ⟨by cases a; cases b; simp_all, List.append_cancel_left e⟩

theorem int_faithful : Spec.Faithful (Set.univ : Set Int) (fun i => (toString i).toList) := by
  refine ⟨fun a _ => ?_, fun a _ b _ e => Int.repr_injective (String.toList_injective e)⟩
  have hd : ∀ n : Nat, ∀ c ∈ n.repr.toList, ¬ Ends c := by
    intro n c hc
    rw [Nat.toList_repr] at hc
    have := Nat.isDigit_of_mem_toDigits (by norm_num) (by norm_num) hc
    rintro (rfl | rfl | rfl) <;> exact absurd this (by decide)
  have hn : ∀ n : Nat, n.repr.toList ≠ [] := by
    intro n
    rw [Nat.toList_repr]
    exact Nat.toDigits_ne_nil
  cases a with
  | ofNat n => exact ⟨hn n, hd n⟩
  | negSucc n =>
    have : (toString (Int.negSucc n)).toList = '-' :: (n + 1).repr.toList := by
      change (Int.repr (Int.negSucc n)).toList = _
      unfold Int.repr
      rw [String.toList_append]
      rfl
    beta_reduce
    rw [this]
    refine ⟨List.cons_ne_nil _ _, fun c hc => ?_⟩
    rcases List.mem_cons.1 hc with rfl | hc
    · rintro (h | h | h) <;> exact absurd h (by decide)
    · exact hd _ c hc

theorem fields_reads (h : ReadsTo N P.num) (he : ReadsTo E P.entry) (a b : Layer T) (ha : a ∈ Spec.LayerIn N E)
    (hb : b ∈ Spec.LayerIn N E) (x y : Text) (e : fieldsText P a ++ x = fieldsText P b ++ y) :
    (a.id = b.id ∧ a.thickness = b.thickness ∧ a.Kv = b.Kv ∧ a.Ks = b.Ks ∧ a.Ms = b.Ms ∧ a.Hdmi = b.Hdmi ∧ a.Ndemag = b.Ndemag) ∧
      x = y := by
  obtain ⟨a1, a2, a3, a4, a5, a6, -⟩ := ha
  obtain ⟨b1, b2, b3, b4, b5, b6, -⟩ := hb
  simp only [fieldsText, List.append_assoc, List.cons_append] at e
  obtain ⟨h0, e⟩ := (readsTo_of_faithful int_faithful).comma (Set.mem_univ _) (Set.mem_univ _) ends_comma (List.append_cancel_left e)
  obtain ⟨h1, e⟩ := h.comma a1 b1 ends_comma (List.append_cancel_left e)
  obtain ⟨h2, e⟩ := vector_reads h a.Kv a2 b.Kv b2 _ _ (List.append_cancel_left e)
  simp only [List.cons.injEq, true_and] at e
  obtain ⟨h3, e⟩ := h.comma a3 b3 ends_comma (List.append_cancel_left e)
  obtain ⟨h4, e⟩ := h.comma a4 b4 ends_comma (List.append_cancel_left e)
  obtain ⟨h5, e⟩ := matrix_reads he a.Hdmi a5 b.Hdmi b5 _ _ (List.append_cancel_left e)
  simp only [List.cons.injEq, true_and] at e
  obtain ⟨h6, e⟩ := matrix_reads he a.Ndemag a6 b.Ndemag b6 _ _ (List.append_cancel_left e)
  exact ⟨⟨h0, h1, h2, h3, h4, h5, h6⟩, e⟩

theorem layer_reads (h : ReadsTo N P.num) (he : ReadsTo E P.entry) : Reads (Spec.LayerIn N E) (layerText P) := by
  intro a ha b hb x y e
  cases hda : a.dyn with
  | none =>
    cases hdb : b.dyn with
    | none =>
      simp only [layerText, hda, hdb, List.append_assoc, List.cons_append, List.nil_append, List.cons.injEq, true_and] at e
      have e := List.append_cancel_left e
      simp only [List.cons.injEq, true_and] at e
      obtain ⟨h1, e⟩ := fields_reads h he a b ha hb _ _ e
      simp only [List.cons.injEq, true_and] at e
      exact ⟨by cases a; cases b; simp_all, e⟩
    | some d =>
      simp only [layerText, hda, hdb, List.append_assoc, List.cons_append, List.nil_append, List.cons.injEq, true_and] at e
      have e := List.append_cancel_left e
      simp only [List.cons.injEq] at e
      exact absurd e.1 (by decide)
  | some d =>
    cases hdb : b.dyn with
    | none =>
      simp only [layerText, hda, hdb, List.append_assoc, List.cons_append, List.nil_append, List.cons.injEq, true_and] at e
      have e := List.append_cancel_left e
      simp only [List.cons.injEq] at e
      exact absurd e.1 (by decide)
    | some d' =>
      simp only [layerText, dynText, hda, hdb, List.append_assoc, List.cons_append, List.nil_append, List.cons.injEq,
        true_and] at e
      have e := List.append_cancel_left e
      simp only [List.cons.injEq, true_and] at e
      obtain ⟨h1, e⟩ := fields_reads h he a b ha hb _ _ (List.append_cancel_left e)
      simp only [List.cons.injEq, true_and] at e
      obtain ⟨a1, a2, a3⟩ := ha.2.2.2.2.2.2 d hda
      obtain ⟨b1, b2, b3⟩ := hb.2.2.2.2.2.2 d' hdb
      obtain ⟨h2, e⟩ := h.comma a1 b1 ends_comma (List.append_cancel_left e)
      obtain ⟨h3, e⟩ := h.comma a2 b2 ends_comma (List.append_cancel_left e)
      obtain ⟨h4, e⟩ := h.comma a3 b3 ends_paren (List.append_cancel_left e)
      have : d = d' := by cases d; cases d'; simp_all
      exact ⟨by cases a; cases b; simp_all, e⟩

/-- C122: two layers with the same text are the same, field by field, if the numbers are printed faithfully. -/
theorem C122_layer_text (h : Spec.Exact P N E) (a b : Layer T) (ha : a ∈ Spec.LayerIn N E) (hb : b ∈ Spec.LayerIn N E)
    (e : layerText P a = layerText P b) : a = b :=
  (layer_reads (readsTo_of_faithful h.num) (readsTo_of_faithful h.entry) a ha b hb [] [] (by rw [e])).1

theorem not_ends {c : Char} (h : c ≠ ',' ∧ c ≠ ')' ∧ c ≠ ']') : ¬ Ends c := by
  rintro (e | e | e)
  exacts [h.1 e, h.2.1 e, h.2.2 e]

theorem vector_starts (P : Printer T) (v : VectorObj T) : ∃ w, vectorText P v = 'V' :: w := ⟨_, rfl⟩

theorem matrix_starts (P : Printer T) (v : CVec T) : ∃ w, matrixText P v = 'M' :: w := ⟨_, rfl⟩

theorem layer_starts (P : Printer T) (l : Layer T) : ∃ w, layerText P l = 'L' :: w := by
  unfold layerText
  split <;> exact ⟨_, rfl⟩

theorem vectorTo (h : ReadsTo N P.num) : ReadsTo (Spec.VecIn N) (vectorText P) :=
  (vector_reads h).to fun a _ => let ⟨w, e⟩ := vector_starts P a; ⟨'V', w, e, not_ends (by decide)⟩

theorem matrixTo (h : ReadsTo E P.entry) : ReadsTo (Spec.ColIn E) (matrixText P) :=
  (matrix_reads h).to fun a _ => let ⟨w, e⟩ := matrix_starts P a; ⟨'M', w, e, not_ends (by decide)⟩

theorem layerTo (h : ReadsTo N P.num) (he : ReadsTo E P.entry) : ReadsTo (Spec.LayerIn N E) (layerText P) :=
  (layer_reads h he).to fun a _ => let ⟨w, e⟩ := layer_starts P a; ⟨'L', w, e, not_ends (by decide)⟩

theorem listTo {α : Type} {A : Set α} {f : α → Text} (h : ReadsTo A f) : ReadsTo {l | ∀ a ∈ l, a ∈ A} (listText f) :=
  (list_reads h).to fun _ _ => ⟨'[', _, rfl, not_ends (by decide)⟩

theorem tensor_reads (h : ReadsTo N P.num) :
    Reads {d : Tensor T | d.1 ∈ Spec.VecIn N ∧ d.2.1 ∈ Spec.VecIn N ∧ d.2.2 ∈ Spec.VecIn N} (tensorText P) := by
  rintro a ⟨a1, a2, a3⟩ b ⟨b1, b2, b3⟩ x y e
  obtain ⟨h1, h2⟩ := list_reads (vectorTo h) [a.1, a.2.1, a.2.2] (by simp [a1, a2, a3]) [b.1, b.2.1, b.2.2] (by simp [b1, b2, b3]) x y e
  simp only [List.cons.injEq, and_true] at h1
  exact ⟨Prod.ext h1.1 (Prod.ext h1.2.1 h1.2.2), h2⟩

theorem opt_reads {α : Type} {A : Set α} {f : α → Text} (h : Reads A f) (hs : ∀ a ∈ A, ∃ c w, f a = c :: w ∧ c ≠ 'N') :
    Reads {o : Option α | ∀ a ∈ o, a ∈ A} (optText f) := by
  intro a ha b hb x y e
  cases a with
  | none =>
    cases b with
    | none => exact ⟨rfl, List.append_cancel_left e⟩
    | some b =>
      obtain ⟨c, w, h1, h2⟩ := hs b (hb b rfl)
      simp only [optText, h1, List.cons_append, List.cons.injEq] at e
      exact absurd e.1.symm h2
  | some a =>
    cases b with
    | none =>
      obtain ⟨c, w, h1, h2⟩ := hs a (ha a rfl)
      simp only [optText, h1, List.cons_append, List.cons.injEq] at e
      exact absurd e.1 h2
    | some b =>
      obtain ⟨h1, h2⟩ := h a (ha a rfl) b (hb b rfl) x y e
      exact ⟨by rw [h1], h2⟩

end texts

section energy
variable {T : Type} [Scalar T] {P : Printer T} {N E : Set T}

/-- C122: two solvers with the same text are the same, field by field, if the numbers are printed faithfully. -/
theorem C122_solver_text (h : Spec.Exact P N E) (a b : Held T) (ha : Spec.Sound N E a) (hb : Spec.Sound N E b)
    (e : solverText P a = solverText P b) : a = b := by
  have hn := readsTo_of_faithful h.num
  have he := readsTo_of_faithful h.entry
  have e : solverText P a ++ [] = solverText P b ++ [] := by rw [e]
  simp only [solverText, List.append_assoc, List.cons_append, List.nil_append] at e
  obtain ⟨h1, e⟩ := list_reads (layerTo hn he) a.solver.layers ha.layers b.solver.layers hb.layers _ _ (List.append_cancel_left e)
  simp only [List.cons.injEq, true_and] at e
  obtain ⟨h2, e⟩ := list_reads hn a.solver.J1 ha.J1 b.solver.J1 hb.J1 _ _ (List.append_cancel_left e)
  simp only [List.cons.injEq, true_and] at e
  obtain ⟨h3, e⟩ := list_reads hn a.solver.J2 ha.J2 b.solver.J2 hb.J2 _ _ (List.append_cancel_left e)
  simp only [List.cons.injEq, true_and] at e
  obtain ⟨h4, e⟩ := opt_reads (vector_reads hn) (fun v _ => let ⟨w, e⟩ := vector_starts P v; ⟨'V', w, e, by decide⟩) a.solver.H ha.H
    b.solver.H hb.H _ _ (List.append_cancel_left e)
  simp only [List.cons.injEq, true_and] at e
  obtain ⟨h5, e⟩ := list_reads (matrixTo he) a.solver.ilD ha.ilD b.solver.ilD hb.ilD _ _ (List.append_cancel_left e)
  simp only [List.cons.injEq, true_and] at e
  obtain ⟨h6, -⟩ := opt_reads (list_reads ((tensor_reads hn).to fun a _ => ⟨'[', _, rfl, not_ends (by decide)⟩))
    (fun _ _ => ⟨'[', _, rfl, by decide⟩) a.ndipole ha.tensors b.ndipole hb.tensors _ _ (List.append_cancel_left e)
  have h7 := ha.dipole
  have h8 := hb.dipole
  rw [h6, ← h8] at h7
  obtain ⟨⟨_, _, _, _, _, _⟩, _⟩ := a
  obtain ⟨⟨_, _, _, _, _, _⟩, _⟩ := b
  simp_all

/-- C122: every call of `create_energy` returns the energy (or raises the error) of the solver as it is at that moment, whatever fields
of solvers and layers were edited before. Partial: the matrices `dipoleMatrix` must be those the constructor made (`Spec.Sound.dipole`);
`C122_stale_refuted` shows what happens otherwise. -/
theorem C122_energy_partial (h : Spec.Exact P N E) (hash : EnergyKey T → Int) (as : List (Act (Nat → Held T) (EnergyCall T))) (s : Nat → Held T)
    (hk : Spec.Hashable (energyCache P hash) as s) (hn : Spec.NoCollision (energyCache P hash) as s)
    (hs : ∀ p ∈ Spec.calls as s, Spec.Sound N E (p.1 p.2.self)) :
    ((energyCache P hash).session as s []).1 = Spec.fresh (fun s c => createEnergy (s c.self).solver c.H) as s := by
  refine C122_transparent (energyCache P hash) as s hk hn fun p hp q hq e => ?_
  have hkp := hk p hp
  have hkq := hk q hq
  have hsp := hs p hp
  have hsq := hs q hq
  obtain ⟨s1, a, f, F, v⟩ := p
  obtain ⟨s2, b, g, G, w⟩ := q
  dsimp only at hsp hsq
  change createEnergy (s1 a).solver F = createEnergy (s2 b).solver G
  simp only [energyCache, energyKey] at e hkp hkq
  rcases F with _ | ⟨x | x | x⟩ <;> rcases G with _ | ⟨y | y | y⟩ <;> simp at e hkp hkq
  · rw [C122_solver_text h _ _ hsp hsq e.1]
  · rw [C122_solver_text h _ _ hsp hsq e.1]; rfl
  · rw [C122_solver_text h _ _ hsp hsq e.1, e.2.2.1]

/-- C122: every call of `total_symbolic_layer_energy` returns the energy of the layers as they are at that moment, although the
comparison of layers leaves fields out. -/
theorem C122_layer_energy (h : Spec.Exact P N E) (hash : LayerKey T → Int) (as : List (Act (Nat → Layer T) (LayerCall T)))
    (s : Nat → Layer T) (hn : Spec.NoCollision (layerCache P hash) as s)
    (hs : ∀ p ∈ Spec.calls as s, p.1 p.2.self ∈ Spec.LayerIn N E ∧ (∀ a ∈ p.2.top, p.1 a ∈ Spec.LayerIn N E) ∧
      ∀ a ∈ p.2.down, p.1 a ∈ Spec.LayerIn N E) :
    ((layerCache P hash).session as s []).1 = Spec.fresh (fun s c =>
      .ok ((s c.self).totalEnergy c.H c.J1top c.J1bottom c.J2top c.J2bottom (c.top.map s) (c.down.map s))) as s := by
  refine C122_transparent (layerCache P hash) as s (fun p _ => by simp [layerCache, layerKey]) hn fun p hp q hq e => ?_
  have opt : ∀ a b : Option Nat, (∀ i ∈ a, p.1 i ∈ Spec.LayerIn N E) → (∀ i ∈ b, q.1 i ∈ Spec.LayerIn N E) →
      (a.map fun i => layerText P (p.1 i)) = (b.map fun i => layerText P (q.1 i)) → a.map p.1 = b.map q.1 := by
    intro a b ha hb e
    cases a <;> cases b <;> simp at e ⊢
    exact C122_layer_text h _ _ (ha _ rfl) (hb _ rfl) e
  simp only [layerCache, layerKey, Option.some.injEq, LayerKey.mk.injEq] at e
  obtain ⟨e1, e2, e3, e4, e5, e6, e7, e8⟩ := e
  obtain ⟨p1, p2, p3⟩ := hs p hp
  obtain ⟨q1, q2, q3⟩ := hs q hq
  simp only [layerCache]
  rw [C122_layer_text h _ _ p1 q1 e1, opt _ _ p2 q2 e7, opt _ _ p3 q3 e8, e2, e3, e4, e5, e6]

end energy

/-! ## Any hash -/

section anyHash
variable {S C K V : Type} (M : Cached S C K V)

/-- C122: while nothing is edited the hash does not matter, calls with colliding hashes are told apart by the comparison of their
arguments. -/
theorem C122_collision (s : S) (cs : List C) (hk : ∀ c ∈ cs, M.text s c ≠ none)
    (hs : ∀ c ∈ cs, ∀ d ∈ cs, M.same s c d = true → M.run s c = M.run s d) :
    (M.session (cs.map .call) s []).1 = cs.map (M.run s) := by
  have key : ∀ (ds : List C) (es : List (Entry C V)), (∀ d ∈ ds, d ∈ cs) → (∀ e ∈ es, e.call ∈ cs ∧ M.run s e.call = .ok e.value) →
      (M.session (ds.map .call) s es).1 = ds.map (M.run s) := by
    intro ds
    induction ds with
    | nil => exact fun _ _ _ => rfl
    | cons c ds ih =>
      intro es hd he
      simp only [List.mem_cons, forall_eq_or_imp] at hd
      simp only [List.map_cons, Cached.session]
      have h : (M.call s c es).1 = M.run s c ∧ ∀ e ∈ (M.call s c es).2, e.call ∈ cs ∧ M.run s e.call = .ok e.value := by
        unfold Cached.call
        split
        · rename_i h
          exact absurd h (hk c hd.1)
        split
        · rename_i e hf
          have hm := List.mem_of_find?_eq_some hf
          have ha := List.find?_some hf
          simp only [Cached.answers, Bool.and_eq_true] at ha
          refine ⟨?_, fun e' h' => ?_⟩
          · rw [← hs e.call (he e hm).1 c hd.1 ha.2, (he e hm).2]
          · rcases List.mem_cons.1 h' with rfl | h'
            · exact he _ hm
            · exact he _ (List.mem_of_mem_eraseP h')
        · split
          · rename_i err hr
            exact ⟨hr.symm, he⟩
          · rename_i v hr
            refine ⟨hr.symm, fun e h => ?_⟩
            rcases List.mem_cons.1 (List.mem_of_mem_take h) with rfl | h
            · exact ⟨hd.1, hr⟩
            · exact he e h
      rw [h.1, ih _ hd.2 h.2]
  exact key cs [] (fun _ h => h) (by simp)

end anyHash

section anyHashEnergy
variable {P : Printer ℝ} {N E : Set ℝ}

/-- C122: calls of `create_energy` on solvers that are not edited return the energy of their solver in their field, for every hash. -/
theorem C122_energy_collision (h : Spec.Exact P N E) (hash : EnergyKey ℝ → Int) (s : Nat → Held ℝ) (cs : List (EnergyCall ℝ))
    (hk : ∀ c ∈ cs, ∀ v, c.H ≠ some (.mutable v)) (hs : ∀ c ∈ cs, Spec.Sound N E (s c.self)) :
    ((energyCache P hash).session (cs.map .call) s []).1 = cs.map fun c => createEnergy (s c.self).solver c.H := by
  refine C122_collision (energyCache P hash) s cs (fun c hc => ?_) fun c hc d hd e => ?_
  · have := hk c hc
    obtain ⟨a, f, F, v⟩ := c
    rcases F with _ | ⟨x | x | x⟩ <;> simp_all [energyCache, energyKey]
  · have h1 := hs c hc
    have h2 := hs d hd
    have h3 := hk c hc
    obtain ⟨a, f, F, v⟩ := c
    obtain ⟨b, g, G, w⟩ := d
    simp only [energyCache, Bool.and_eq_true, Bool.or_eq_true, beq_iff_eq, decide_eq_true_eq] at e h1 h2 ⊢
    obtain ⟨⟨⟨e1, -⟩, e2⟩, -⟩ := e
    have e1 : s a = s b := e1.elim (fun h => h ▸ rfl) fun e => C122_solver_text h _ _ h1 h2 e
    rw [e1]
    rcases F with _ | ⟨x | x | x⟩ <;> rcases G with _ | ⟨y | y | y⟩ <;> simp [sameField] at e2 h3
    · rfl
    · rfl
    · rw [CVec.ext e2.1.1 e2.1.2 e2.2]

/-- C122: calls of `total_symbolic_layer_energy` on layers that are not edited, for every hash. The comparison leaves the DMI field,
the demagnetisation and the torques out, so layers that differ in nothing else must not occur together. -/
theorem C122_layer_collision (hash : LayerKey ℝ → Int) (s : Nat → Layer ℝ) (cs : List (LayerCall ℝ))
    (hs : ∀ c ∈ cs, ∀ d ∈ cs, ∀ a ∈ c.self :: (c.top.toList ++ c.down.toList), ∀ b ∈ d.self :: (d.top.toList ++ d.down.toList),
      (s a).id = (s b).id → (s a).thickness = (s b).thickness → (s a).Kv.theta = (s b).Kv.theta → (s a).Kv.phi = (s b).Kv.phi →
      (s a).Kv.mag = (s b).Kv.mag → (s a).Ks = (s b).Ks → (s a).Ms = (s b).Ms →
      (∀ d ∈ (s a).dyn, ∀ e ∈ (s b).dyn, d.alpha = e.alpha) → s a = s b) :
    ((layerCache P hash).session (cs.map .call) s []).1 = cs.map fun c =>
      .ok ((s c.self).totalEnergy c.H c.J1top c.J1bottom c.J2top c.J2bottom (c.top.map s) (c.down.map s)) := by
  refine C122_collision (layerCache P hash) s cs (fun c _ => by simp [layerCache, layerKey]) fun c hc d hd e => ?_
  have one : ∀ a ∈ c.self :: (c.top.toList ++ c.down.toList), ∀ b ∈ d.self :: (d.top.toList ++ d.down.toList),
      (a = b ∨ (s a).same (s b) = true) → s a = s b := by
    rintro a ha b hb (rfl | h)
    · rfl
    · unfold Layer.same at h
      have hc := hs c hc d hd a ha b hb
      split at h
      all_goals
        simp only [Layer.eqDynamic, Layer.eqLayer, VectorObj.eqb, Bool.and_eq_true, beq_iff_eq, Scalar.eqb_real, decide_eq_true_eq] at h
        simp_all
  simp only [layerCache, Bool.and_eq_true, Bool.or_eq_true, beq_iff_eq, sameField, Scalar.eqb_real, decide_eq_true_eq] at e ⊢
  obtain ⟨⟨⟨⟨⟨⟨⟨e1, ⟨e2, e3⟩, e4⟩, e5⟩, e6⟩, e7⟩, e8⟩, e9⟩, e10⟩ := e
  have ht : c.top.map s = d.top.map s := by
    cases hx : c.top <;> cases hy : d.top <;> rw [hx, hy] at e9 <;> simp at e9 ⊢
    exact one _ (by simp [hx]) _ (by simp [hy]) e9
  have hb : c.down.map s = d.down.map s := by
    cases hx : c.down <;> cases hy : d.down <;> rw [hx, hy] at e10 <;> simp at e10 ⊢
    exact one _ (by simp [hx]) _ (by simp [hy]) e10
  rw [one _ (by simp) _ (by simp) e1, CVec.ext e2 e3 e4, e5, e6, e7, e8, ht, hb]

/-- C122: both caches keep at most three results, in any program. -/
theorem C122_three (he : EnergyKey ℝ → Int) (hl : LayerKey ℝ → Int) :
    (∀ as s, ((energyCache P he).session as s []).2.length ≤ 3) ∧ ∀ as s, ((layerCache P hl).session as s []).2.length ≤ 3 :=
  ⟨fun as s => C122_bounded (energyCache P he) as s, fun as s => C122_bounded (layerCache P hl) as s⟩

end anyHashEnergy

/-! ## Where it fails -/

/-- Two layers of unit thickness and magnetisation. -/
def unitLayer (i : Int) : Layer ℝ := ⟨i, 1, ⟨0, 0, 0⟩, 0, 1, ⟨0, 0, 0⟩, ⟨0, 0, 0⟩, none⟩

/-- A pair with dipole matrices `d`. -/
def pair (d : Rows ℝ) : Held ℝ :=
  ⟨⟨[unitLayer 0, unitLayer 1], [0], [0], some ⟨0, 0, 0⟩, [⟨0, 0, 0⟩], some [d]⟩, some [(⟨0, 0, 0⟩, ⟨0, 0, 0⟩, ⟨0, 0, 0⟩)]⟩

/-- The call without arguments. -/
def plainCall {T : Type} : EnergyCall T := ⟨0, 0, none, false⟩

/-- Ask for the energy, replace `dipoleMatrix`, ask again. -/
def replaced (d e : Rows ℝ) : List (Act (Nat → Held ℝ) (EnergyCall ℝ)) × (Nat → Held ℝ) :=
  ([.call plainCall, .edit fun _ _ => pair e, .call plainCall], fun _ => pair d)

/-- C122 refuted: `dipoleMatrix` is not part of the text, so after `solver.dipoleMatrix = [...]` the old energy is served. -/
theorem C122_stale_refuted (P : Printer ℝ) (hash : EnergyKey ℝ → Int) : ∃ as s, Spec.Hashable (energyCache P hash) as s ∧
    Spec.NoCollision (energyCache P hash) as s ∧
    ((energyCache P hash).session as s []).1 ≠ Spec.fresh (fun s c => createEnergy (s c.self).solver c.H) as s := by
  set d : Rows ℝ := ⟨⟨0, 0, 0⟩, ⟨0, 0, 0⟩, ⟨0, 0, 0⟩⟩
  set e : Rows ℝ := ⟨⟨0, 0, 0⟩, ⟨0, 0, 0⟩, ⟨0, 0, 1⟩⟩
  refine ⟨(replaced d e).1, (replaced d e).2, ?_, ?_, ?_⟩
  · intro p hp
    simp only [replaced, Spec.calls, List.mem_cons, List.not_mem_nil, or_false] at hp
    rcases hp with rfl | rfl <;> simp [energyCache, energyKey, plainCall]
  · intro p hp q hq k l h1 h2 _
    simp only [replaced, Spec.calls, List.mem_cons, List.not_mem_nil, or_false] at hp hq
    rcases hp with rfl | rfl <;> rcases hq with rfl | rfl <;> exact Option.some.inj (h1.symm.trans h2)
  · have h1 : ((energyCache P hash).session (replaced d e).1 (replaced d e).2 []).1 =
        [.ok ((pair d).solver.energy ⟨0, 0, 0⟩), .ok ((pair d).solver.energy ⟨0, 0, 0⟩)] := by
      have hg : (⟨0, 0, 0⟩ : VectorObj ℝ).getCartesian = ⟨0, 0, 0⟩ := by simp [VectorObj.getCartesian, VectorObj.fromSpherical]
      have hr : ∀ s : Nat → Held ℝ, s 0 = pair d → (energyCache P hash).run s plainCall = .ok ((pair d).solver.energy ⟨0, 0, 0⟩) := by
        intro s h
        simp [energyCache, createEnergy, plainCall, h, pair, hg]
      set k : EnergyKey ℝ := ⟨solverText P (pair d), 0, none, none, false⟩
      have hk : ∀ f : Rows ℝ, (energyCache P hash).text (fun _ => pair f) plainCall = some k := fun _ => rfl
      have ha : (energyCache P hash).answers (fun _ => pair e) plainCall (hash k)
          ⟨hash k, plainCall, (pair d).solver.energy ⟨0, 0, 0⟩⟩ = true := by
        simp [Cached.answers, energyCache, plainCall, sameField]
      have c1 : (energyCache P hash).call (fun _ => pair d) plainCall [] =
          (.ok ((pair d).solver.energy ⟨0, 0, 0⟩), [⟨hash k, plainCall, (pair d).solver.energy ⟨0, 0, 0⟩⟩]) := by
        unfold Cached.call
        rw [hk d]
        simp only [List.find?_nil]
        rw [hr _ rfl]
        rfl
      have c2 : ((energyCache P hash).call (fun _ => pair e) plainCall [⟨hash k, plainCall, (pair d).solver.energy ⟨0, 0, 0⟩⟩]).1 =
          .ok ((pair d).solver.energy ⟨0, 0, 0⟩) :=
        call_hit _ _ _ _ (hk e) ha
      simp only [replaced, Cached.session]
      rw [c1]
      simp only
      rw [c2]
    rw [h1]
    have h2 : (fun s c => createEnergy (s c.self).solver c.H : (Nat → Held ℝ) → EnergyCall ℝ → Except Err ((Coord → ℝ) → ℝ))
        (fun _ => pair e) plainCall = .ok ((pair e).solver.energy ⟨0, 0, 0⟩) := by
      simp [createEnergy, plainCall, pair, VectorObj.getCartesian, VectorObj.fromSpherical]
    intro h
    simp only [replaced, Spec.fresh, List.cons.injEq, and_true] at h
    have h := h.2.trans h2
    have := congrFun (Except.ok.inj h) fun _ => 0
    have hm : (mu0 : ℝ) ≠ 0 := by norm_num [mu0]
    simp [Solver.energy, pair, couplings, exchange, dipoleStep, dipolar, Layer.noInteraction, Layer.m, unitLayer, CVec.dot, CVec.cross,
      Rows.mulVec, d, e] at this
    exact hm (by linarith)

/-- C122 refuted: Python asks that equal objects have equal hashes. A layer and its copy with another DMI field compare equal, and
what they are hashed by differs. -/
theorem C122_hash_refuted {P : Printer ℝ} {N E : Set ℝ} (h : Spec.Exact P N E) (a : Layer ℝ) (ha : a ∈ Spec.LayerIn N E) (d : CVec ℝ)
    (hd : d ∈ Spec.ColIn E) (hne : a.Hdmi ≠ d) :
    a.same { a with Hdmi := d } = true ∧ layerText P a ≠ layerText P { a with Hdmi := d } := by
  refine ⟨?_, fun e => ?_⟩
  · unfold Layer.same
    cases hda : a.dyn <;> simp [Layer.eqDynamic, Layer.eqLayer, VectorObj.eqb]
  · obtain ⟨h1, h2, h3, h4, _, h6, h7⟩ := ha
    have := C122_layer_text h a { a with Hdmi := d } ⟨h1, h2, h3, h4, by assumption, h6, h7⟩ ⟨h1, h2, h3, h4, hd, h6, h7⟩ e
    exact hne (congrArg Layer.Hdmi this)

/-- C84 refuted: `analytical_roots` passes a `sym.Matrix` to the cached `create_energy`; it has no hash, so every field scan raises
`TypeError` before it yields anything. -/
theorem C84_raises_refuted {T R : Type} [Scalar T] (P : Printer T) (hash : EnergyKey T → Int) (s : Nat → Held T)
    (es : List (Entry (EnergyCall T) ((Coord → T) → T))) (self : Nat) (Hsym : CVec T) (rest : ((Coord → T) → T) → Except Err R)
    (descend : VectorObj T → List T → List T) (roots : R → VectorObj T → List T → List T) (Hrange : List (VectorObj T))
    (init : Option (List T)) :
    analyticalScan P hash s es self Hsym rest descend roots Hrange init = .error .typeError := by
  simp [analyticalScan, analyticalRoots, Cached.call, energyCache, energyKey]

/-! ## Examples -/

section examples

/-- Whole numbers, printed with their digits. -/
noncomputable def wholes : Printer ℝ := ⟨fun x => (toString ⌊x⌋).toList, fun x => (toString ⌊x⌋).toList⟩

/-- The whole numbers. -/
def whole : Set ℝ := Set.range ((↑) : Int → ℝ)

theorem wholes_faithful : Spec.Faithful whole fun x => (toString ⌊x⌋).toList := by
  refine ⟨fun a _ => int_faithful.1 ⌊a⌋ (Set.mem_univ _), ?_⟩
  rintro _ ⟨a, rfl⟩ _ ⟨b, rfl⟩ e
  simp only [Int.floor_intCast] at e
  rw [int_faithful.2 (Set.mem_univ a) (Set.mem_univ b) e]

theorem wholes_exact : Spec.Exact wholes whole whole := ⟨wholes_faithful, wholes_faithful⟩

theorem zero_whole : (0 : ℝ) ∈ whole := ⟨0, by simp⟩
theorem one_whole : (1 : ℝ) ∈ whole := ⟨1, by simp⟩

/-- One layer in a field of magnitude `m` along z. -/
def inField (m : ℝ) : Held ℝ := ⟨⟨[unitLayer 0], [], [], some ⟨0, 0, m⟩, [], none⟩, none⟩

theorem inField_sound (m : ℝ) (h : m ∈ whole) : Spec.Sound whole whole (inField m) where
  layers := by
    intro l hl
    obtain rfl : l = unitLayer 0 := by simpa [inField] using hl
    exact ⟨one_whole, ⟨zero_whole, zero_whole, zero_whole⟩, zero_whole, one_whole, ⟨zero_whole, zero_whole, zero_whole⟩,
      ⟨zero_whole, zero_whole, zero_whole⟩, by simp [unitLayer]⟩
  J1 := by simp [inField]
  J2 := by simp [inField]
  H := by
    intro v hv
    obtain rfl : v = ⟨0, 0, m⟩ := by simpa [inField, eq_comm] using hv
    exact ⟨zero_whole, zero_whole, h⟩
  ilD := by simp [inField]
  tensors := by simp [inField]
  dipole := rfl

/-- Ask for the energy in the field 0, set the field to 1, ask again. -/
def scan : List (Act (Nat → Held ℝ) (EnergyCall ℝ)) := [.call plainCall, .edit fun _ _ => inField 1, .call plainCall]

/-- The two calls have different keys, so the hash can tell them apart, and the second call gives the energy in the new field. -/
example : ∃ hash : EnergyKey ℝ → Int,
    ((energyCache wholes hash).session scan (fun _ => inField 0) []).1 =
      [.ok ((inField 0).solver.energy ⟨0, 0, 0⟩), .ok ((inField 1).solver.energy ⟨0, 0, 1⟩)] ∧
    (inField 0).solver.energy ⟨0, 0, 0⟩ (fun _ => 0) ≠ (inField 1).solver.energy ⟨0, 0, 1⟩ fun _ => 0 := by
  classical
  refine ⟨fun k => if k.self = solverText wholes (inField 0) then 0 else 1, ?_, ?_⟩
  · rw [C122_energy_partial wholes_exact _ scan (fun _ => inField 0)]
    · simp [Spec.fresh, scan, createEnergy, plainCall, inField, VectorObj.getCartesian, VectorObj.fromSpherical]
    · intro p hp
      simp only [scan, Spec.calls, List.mem_cons, List.not_mem_nil, or_false] at hp
      rcases hp with rfl | rfl <;> simp [energyCache, energyKey, plainCall]
    · have hne : solverText wholes (inField 1) ≠ solverText wholes (inField 0) := by
        intro h
        have := C122_solver_text wholes_exact _ _ (inField_sound 1 one_whole) (inField_sound 0 zero_whole) h
        simp [inField] at this
      intro p hp q hq k l h1 h2 h
      simp only [scan, Spec.calls, List.mem_cons, List.not_mem_nil, or_false] at hp hq
      rcases hp with rfl | rfl <;> rcases hq with rfl | rfl <;>
        simp only [energyCache, energyKey, plainCall, Option.some.injEq] at h1 h2 h <;> subst h1 h2 <;>
        first | rfl | (simp [hne] at h)
    · intro p hp
      simp only [scan, Spec.calls, List.mem_cons, List.not_mem_nil, or_false] at hp
      rcases hp with rfl | rfl
      · exact inField_sound 0 zero_whole
      · exact inField_sound 1 one_whole
  · have hm : (mu0 : ℝ) ≠ 0 := by norm_num [mu0]
    simp [Solver.energy, inField, couplings, Layer.noInteraction, Layer.m, unitLayer, CVec.dot, hm]

/-- Two solvers in different fields, and a hash that is always 0. -/
example : ((energyCache wholes fun _ => 0).session ([⟨0, 0, none, false⟩, ⟨1, 0, none, false⟩].map .call)
      (fun i => inField i) []).1 = [.ok ((inField 0).solver.energy ⟨0, 0, 0⟩), .ok ((inField 1).solver.energy ⟨0, 0, 1⟩)] := by
  rw [C122_energy_collision wholes_exact]
  · simp [createEnergy, inField, VectorObj.getCartesian, VectorObj.fromSpherical]
  · simp
  · intro c hc
    exact inField_sound _ ⟨c.self, by simp⟩

/-- Two layers with different ids meet the conditions of `C122_layer_collision`. -/
example : ((layerCache wholes fun _ => 0).session ([⟨0, ⟨0, 0, 0⟩, 1, 0, 0, 0, some 1, none⟩, ⟨1, ⟨0, 0, 0⟩, 1, 0, 0, 0, none, some 0⟩].map .call)
      (fun i => unitLayer i) []).1 = [.ok ((unitLayer 0).totalEnergy ⟨0, 0, 0⟩ 1 0 0 0 (some (unitLayer 1)) none),
        .ok ((unitLayer 1).totalEnergy ⟨0, 0, 0⟩ 1 0 0 0 none (some (unitLayer 0)))] := by
  rw [C122_layer_collision]
  · simp
  · intro c _ d _ a _ b _ h _ _ _ _ _ _ _
    have : a = b := by simpa [unitLayer] using h
    rw [this]

/-- A layer whose DMI field can be changed without changing what it compares equal to. -/
example : unitLayer 0 ∈ Spec.LayerIn whole whole ∧ (⟨0, 0, 1⟩ : CVec ℝ) ∈ Spec.ColIn whole ∧ (unitLayer 0).Hdmi ≠ ⟨0, 0, 1⟩ :=
  ⟨(inField_sound 0 zero_whole).layers _ (by simp [inField]), ⟨zero_whole, zero_whole, one_whole⟩, by simp [unitLayer]⟩

end examples

end SB
