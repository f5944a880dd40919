import Verif.Model.PyView
import Mathlib.Data.List.Chain
import Mathlib.Order.Bounds.Basic

set_option linter.unusedSectionVars false

/-!
# C103, C105: the error of a fit, resonance lines
-/

namespace View

/-- The entries of a sweep: for every field its frequencies. -/
def entries (fs : List (ℝ × List ℝ)) : List (ℝ × ℝ) := fs.flatMap fun p => p.2.map fun f => (p.1, f)

/-- Fields with at least one frequency, no two neighbours the same. -/
structure Runs (fs : List (ℝ × List ℝ)) : Prop where
  nonempty : ∀ p ∈ fs, p.2 ≠ []
  change : fs.IsChain fun p q => p.1 ≠ q.1

theorem groups_cons (p : ℝ × ℝ) (ps : List (ℝ × ℝ)) : ∃ g gs, groups (p :: ps) = (p :: g) :: gs := by
  rw [groups]
  split
  · split
    · exact ⟨_, _, rfl⟩
    · exact ⟨_, _, rfl⟩
  · exact ⟨_, _, rfl⟩

theorem groups_run (h f : ℝ) (fs : List ℝ) (rest : List (ℝ × ℝ)) (hr : ∀ q, rest.head? = some q → q.1 ≠ h) :
    groups (((f :: fs).map fun f => (h, f)) ++ rest) = ((f :: fs).map fun f => (h, f)) :: groups rest := by
  induction fs generalizing f with
  | nil =>
    cases rest with
    | nil => rfl
    | cons q rest =>
      obtain ⟨g, gs, e⟩ := groups_cons q rest
      have hq := hr q rfl
      rw [List.map_cons, List.map_nil, List.cons_append, List.nil_append, groups, e]
      simp [hq.symm]
  | cons f2 fs ih =>
    rw [List.map_cons, List.cons_append, groups, ih f2]
    simp

theorem groups_entries {fs : List (ℝ × List ℝ)} (h : Runs fs) : groups (entries fs) = fs.map fun p => p.2.map fun f => (p.1, f) := by
  induction fs with
  | nil => rfl
  | cons p fs ih =>
    obtain ⟨x, l⟩ := p
    have hl : l ≠ [] := h.nonempty (x, l) (by simp)
    obtain ⟨f, l, rfl⟩ := List.exists_cons_of_ne_nil hl
    rw [List.map_cons, ← ih ⟨fun q hq => h.nonempty q (by simp [hq]), List.IsChain.tail h.change⟩]
    refine groups_run x f l (entries fs) fun q hq => ?_
    cases fs with
    | nil => simp [entries] at hq
    | cons p2 fs =>
      obtain ⟨y, l2⟩ := p2
      have hl2 : l2 ≠ [] := h.nonempty (y, l2) (by simp)
      obtain ⟨f2, l2, rfl⟩ := List.exists_cons_of_ne_nil hl2
      have hxy : x ≠ y := by
        have := h.change
        rw [List.isChain_cons_cons] at this
        exact this.1
      obtain rfl : (y, f2) = q := by simpa [entries] using hq
      exact hxy.symm

theorem minOf_least (a : ℝ) (l : List ℝ) : IsLeast {y | y ∈ a :: l} (minOf a l) := by
  induction l generalizing a with
  | nil => simp [minOf, IsLeast, lowerBounds]
  | cons b l ih =>
    rw [minOf]
    simp only [Scalar.ltb_real, decide_eq_true_eq]
    split
    · rename_i h
      obtain ⟨h1, h2⟩ := ih b
      refine ⟨?_, ?_⟩
      · simp only [Set.mem_ofPred_eq, List.mem_cons] at h1 ⊢
        exact Or.inr h1
      · intro y hy
        simp only [Set.mem_ofPred_eq, List.mem_cons] at hy
        rcases hy with rfl | hy
        · exact (h2 (by simp)).trans h.le
        · exact h2 (by simpa using hy)
    · rename_i h
      obtain ⟨h1, h2⟩ := ih a
      refine ⟨?_, ?_⟩
      · simp only [Set.mem_ofPred_eq, List.mem_cons] at h1 ⊢
        tauto
      · intro y hy
        simp only [Set.mem_ofPred_eq, List.mem_cons] at hy
        rcases hy with rfl | rfl | hy
        · exact h2 (by simp)
        · exact (h2 (by simp)).trans (not_lt.1 h)
        · exact h2 (by simp [hy])

/-- The squared distances of a target in Hz from frequencies in GHz. -/
def distances (t : ℝ) (fs : List ℝ) : Set ℝ := {y | ∃ f ∈ fs, y = (t / 10 ^ 9 - f) ^ 2}

theorem mseLoop_eq (target : List ℝ) (fs : List (ℝ × List ℝ)) (hne : ∀ p ∈ fs, p.2 ≠ []) (i : ℕ) (hlen : i + fs.length ≤ target.length) (acc : ℝ) :
    ∃ ms : List ℝ, mseLoop target i (fs.map fun p => p.2.map fun f => (p.1, f)) acc = .ok (acc + ms.sum) ∧ ms.length = fs.length ∧
      ∀ (n : ℕ) (t m : ℝ) (p : ℝ × List ℝ), target[i + n]? = some t → fs[n]? = some p → ms[n]? = some m → IsLeast (distances t p.2) m := by
  induction fs generalizing i acc with
  | nil => exact ⟨[], by simp [mseLoop], rfl, by simp⟩
  | cons p fs ih =>
    obtain ⟨x, l⟩ := p
    have hl : l ≠ [] := hne (x, l) (by simp)
    obtain ⟨f, l, rfl⟩ := List.exists_cons_of_ne_nil hl
    rw [List.length_cons] at hlen
    have ht : target[i]? = some target[i] := List.getElem?_eq_getElem (by omega)
    have e9 : ∀ t : ℝ, t / @OfScientific.ofScientific ℝ Scalar.instOfSci 1 false 9 = t / 10 ^ 9 := fun t => by
      rw [Scalar.ofSci_real_false]
      norm_num
    obtain ⟨ms, h1, h2, h3⟩ := ih (fun p hp => hne p (by simp [hp])) (i + 1) (by omega)
      (acc + minOf ((target[i] / 10 ^ 9 - f) ^ 2) (l.map fun f => (target[i] / 10 ^ 9 - f) ^ 2))
    refine ⟨minOf ((target[i] / 10 ^ 9 - f) ^ 2) (l.map fun f => (target[i] / 10 ^ 9 - f) ^ 2) :: ms, ?_, by simp [h2], ?_⟩
    · simp only [List.map_cons, mseLoop, ht, Scalar.powi_real, e9, List.map_map, Function.comp_def]
      rw [h1, List.sum_cons]
      congr 1
      ring
    · intro n t m p hn hp hm
      cases n with
      | zero =>
        obtain rfl : target[i] = t := by simpa [ht] using hn
        obtain rfl : (x, f :: l) = p := by simpa using hp
        obtain rfl : _ = m := by simpa using hm
        have := minOf_least ((target[i] / 10 ^ 9 - f) ^ 2) (l.map fun f => (target[i] / 10 ^ 9 - f) ^ 2)
        convert this using 1
        ext y
        simp [distances, eq_comm]
      | succ n => exact h3 n t m p (by rw [← hn]; congr 1; omega) (by simpa using hp) (by simpa using hm)

theorem mseLoop_index (target : List ℝ) (fs : List (ℝ × List ℝ)) (hne : ∀ p ∈ fs, p.2 ≠ []) (i : ℕ) (hlen : target.length < i + fs.length)
    (hi : i ≤ target.length) (acc : ℝ) : mseLoop target i (fs.map fun p => p.2.map fun f => (p.1, f)) acc = .error .indexError := by
  induction fs generalizing i acc with
  | nil => simp at hlen; omega
  | cons p fs ih =>
    obtain ⟨x, l⟩ := p
    have hl : l ≠ [] := hne (x, l) (by simp)
    obtain ⟨f, l, rfl⟩ := List.exists_cons_of_ne_nil hl
    rw [List.length_cons] at hlen
    by_cases h : i < target.length
    · simp only [List.map_cons, mseLoop, List.getElem?_eq_getElem h]
      exact ih (fun p hp => hne p (by simp [hp])) (i + 1) (by omega) (by omega) _
    · simp only [List.map_cons, mseLoop, List.getElem?_eq_none (not_lt.1 h)]

/-- Any data are the entries of some runs. -/
theorem exists_runs (data : List (ℝ × ℝ)) : ∃ fs, Runs fs ∧ data = entries fs := by
  induction data with
  | nil => exact ⟨[], ⟨by simp, .nil⟩, rfl⟩
  | cons p ps ih =>
    obtain ⟨x, f⟩ := p
    obtain ⟨fs, hr, rfl⟩ := ih
    cases fs with
    | nil => exact ⟨[(x, [f])], ⟨by simp, .singleton _⟩, rfl⟩
    | cons q fs =>
      obtain ⟨y, l⟩ := q
      by_cases h : x = y
      · subst h
        refine ⟨(x, f :: l) :: fs, ⟨fun p hp => ?_, ?_⟩, by simp [entries]⟩
        · rcases List.mem_cons.1 hp with rfl | hp
          · simp
          · exact hr.nonempty p (by simp [hp])
        · cases fs with
          | nil => exact .singleton _
          | cons q fs =>
            have := hr.change
            rw [List.isChain_cons_cons] at this ⊢
            exact this
      · refine ⟨(x, [f]) :: (y, l) :: fs, ⟨fun p hp => ?_, ?_⟩, by simp [entries]⟩
        · rcases List.mem_cons.1 hp with rfl | hp
          · simp
          · exact hr.nonempty p hp
        · rw [List.isChain_cons_cons]
          exact ⟨h, hr.change⟩

theorem entries_length {fs : List (ℝ × List ℝ)} (h : ∀ p ∈ fs, p.2 ≠ []) : fs.length ≤ (entries fs).length := by
  induction fs with
  | nil => simp
  | cons p fs ih =>
    have h1 := ih fun q hq => h q (by simp [hq])
    have h2 := List.length_pos_of_ne_nil (h p (by simp))
    simp only [entries, List.flatMap_cons, List.length_append, List.length_map, List.length_cons] at h1 ⊢
    omega

/-- **C103.** What the error is, for all data: infinite with fewer frequencies than targets; else the sum, over the runs of entries with the same
field, of the smallest squared distance between a frequency of the run and the target of the same number as the run, in GHz; an
`IndexError` if there are more runs than targets. Every list of entries consists of such runs. -/
theorem C103_error (inf : ℝ) (target : List ℝ) (data : List (ℝ × ℝ)) : ∃ fs, Runs fs ∧ data = entries fs ∧
    (data.length < target.length → computeMse inf target data = .ok inf) ∧
    (target.length < fs.length → computeMse inf target data = .error .indexError) ∧
    (target.length ≤ data.length → fs.length ≤ target.length → ∃ ms : List ℝ, computeMse inf target data = .ok ms.sum ∧ ms.length = fs.length ∧
      ∀ (n : ℕ) (t m : ℝ) (p : ℝ × List ℝ), target[n]? = some t → fs[n]? = some p → ms[n]? = some m → IsLeast (distances t p.2) m) := by
  obtain ⟨fs, hr, rfl⟩ := exists_runs data
  refine ⟨fs, hr, rfl, fun h => ?_, fun h => ?_, fun h1 h2 => ?_⟩
  · rw [computeMse, if_pos h]
  · have := entries_length hr.nonempty
    rw [computeMse, if_neg (by omega), groups_entries hr]
    exact mseLoop_index target fs hr.nonempty 0 (by omega) (by omega) _
  · rw [computeMse, if_neg (by omega), groups_entries hr]
    obtain ⟨ms, e1, e2, e3⟩ := mseLoop_eq target fs hr.nonempty 0 (by omega) (@OfNat.ofNat ℝ 0 (Scalar.instOfNat 0))
    refine ⟨ms, by rw [e1]; simp, e2, fun n t m p hn => e3 n t m p (by simpa using hn)⟩

/-- **C103, partial.** If every field has a frequency, neighbouring fields differ and there is one target for each field, the error is the sum over
the fields of the smallest squared distance between the target and a frequency of that field. The conditions are needed: see below. -/
theorem C103_fields_partial (inf : ℝ) (target : List ℝ) (fs : List (ℝ × List ℝ)) (hr : Runs fs) (hlen : target.length = fs.length) :
    ∃ ms : List ℝ, computeMse inf target (entries fs) = .ok ms.sum ∧ ms.length = fs.length ∧
      ∀ (n : ℕ) (t m : ℝ) (p : ℝ × List ℝ), target[n]? = some t → fs[n]? = some p → ms[n]? = some m → IsLeast (distances t p.2) m := by
  have := entries_length hr.nonempty
  rw [computeMse, if_neg (by omega), groups_entries hr]
  obtain ⟨ms, e1, e2, e3⟩ := mseLoop_eq target fs hr.nonempty 0 (by omega) (@OfNat.ofNat ℝ 0 (Scalar.instOfNat 0))
  exact ⟨ms, by rw [e1]; simp, e2, fun n t m p hn => e3 n t m p (by simpa using hn)⟩

/-- **C103.** The error of a perfect fit is 0, under the same conditions. -/
theorem C103_perfect_partial (inf : ℝ) (target : List ℝ) (fs : List (ℝ × List ℝ)) (hr : Runs fs) (hlen : target.length = fs.length)
    (hp : ∀ (n : ℕ) (t : ℝ) (p : ℝ × List ℝ), target[n]? = some t → fs[n]? = some p → t / 10 ^ 9 ∈ p.2) : computeMse inf target (entries fs) = .ok 0 := by
  obtain ⟨ms, h1, h2, h3⟩ := C103_fields_partial inf target fs hr hlen
  rw [h1]
  congr 1
  refine List.sum_eq_zero fun m hm => ?_
  obtain ⟨n, hn⟩ := List.mem_iff_getElem?.1 hm
  have hn' : n < ms.length := (List.getElem?_eq_some_iff.1 hn).1
  have ht : target[n]? = some target[n] := List.getElem?_eq_getElem (by omega)
  have hf : fs[n]? = some fs[n] := List.getElem?_eq_getElem (by omega)
  obtain ⟨⟨f, -, e⟩, h5⟩ := h3 n _ m _ ht hf hn
  have h6 : m ≤ 0 := h5 ⟨_, hp n _ _ ht hf, by ring⟩
  have h7 : 0 ≤ m := by rw [e]; positivity
  linarith

/-- **C103, refuted.** A field for which no frequency is found shifts all later ones against their targets: here every target is met exactly, at
every field that has frequencies, and the error is 1. -/
theorem C103_missing_refuted (inf : ℝ) : ∃ (target : List ℝ) (fs : List (ℝ × List ℝ)), target.length = fs.length ∧
    (∀ (n : ℕ) (t : ℝ) (p : ℝ × List ℝ), target[n]? = some t → fs[n]? = some p → p.2 ≠ [] → t / 10 ^ 9 ∈ p.2) ∧
    computeMse inf target (entries fs) = .ok 1 := by
  refine ⟨[5 * 10 ^ 9, 6 * 10 ^ 9, 7 * 10 ^ 9], [(1, [5]), (2, []), (3, [7, 7])], rfl, ?_, ?_⟩
  · intro n t p ht hp hne
    match n with
    | 0 =>
      obtain rfl : _ = t := by simpa using ht
      obtain rfl : _ = p := by simpa using hp
      norm_num
    | 1 =>
      obtain rfl : _ = p := by simpa using hp
      simp at hne
    | 2 =>
      obtain rfl : _ = t := by simpa using ht
      obtain rfl : _ = p := by simpa using hp
      norm_num
    | n + 3 => simp at ht
  · norm_num [computeMse, entries, groups, mseLoop, minOf]
    exact (Scalar.ofNat_real 0).trans Nat.cast_zero

/-- **C103, refuted.** With two resonances for each field, read row by row, the second field is compared with the second resonance of the first:
here all four resonances are met exactly and the error is 1. -/
theorem C103_columns_refuted (inf : ℝ) : ∃ (rows : List (List ℝ)) (fs : List (ℝ × List ℝ)), rows.length = fs.length ∧ Runs fs ∧
    (∀ (n : ℕ) (r : List ℝ) (p : ℝ × List ℝ), rows[n]? = some r → fs[n]? = some p → p.2 = r.map (· / 10 ^ 9)) ∧
    computeMse inf rows.flatten (entries fs) = .ok 1 := by
  refine ⟨[[5 * 10 ^ 9, 9 * 10 ^ 9], [6 * 10 ^ 9, 10 * 10 ^ 9]], [(1, [5, 9]), (2, [6, 10])], rfl, ⟨by simp, by simp⟩, ?_, ?_⟩
  · intro n t p ht hp
    match n with
    | 0 =>
      obtain rfl : _ = t := by simpa using ht
      obtain rfl : _ = p := by simpa using hp
      norm_num
    | 1 =>
      obtain rfl : _ = t := by simpa using ht
      obtain rfl : _ = p := by simpa using hp
      norm_num
    | n + 2 => simp at ht
  · norm_num [computeMse, entries, groups, mseLoop, minOf]
    exact (Scalar.ofNat_real 0).trans Nat.cast_zero

/-- The conditions can be met. -/
example : Runs [(1, [5, 9]), (2, [6])] := ⟨by simp, by simp⟩

/-! ### Resonance lines -/

section
variable {T : Type} [Scalar T]

/-- What the addition of numpy does: it never keeps a number. -/
theorem plusNone_cases (xs : List T) (n : ℤ) : (plusNone xs n = .ok [] ∧ (xs = [] ∨ n ≤ 0) ∧ xs.length ≤ 1 ∧ n ≤ 1) ∨
    plusNone xs n = .error .typeError ∨ plusNone xs n = .error .valueError := by
  unfold plusNone
  split
  · rename_i h
    split
    · rename_i h2
      refine Or.inl ⟨rfl, ?_, ?_, ?_⟩
      · rcases h2 with h2 | h2
        · exact Or.inl (List.eq_nil_of_length_eq_zero h2)
        · exact Or.inr (by omega)
      · omega
      · omega
    · exact Or.inr (Or.inl rfl)
  · exact Or.inr (Or.inr rfl)

theorem collect_mem {α β : Type} {f : α → Except Err β} {l : List α} {r : List β} (h : Proc.collect f l = .ok r) {b : β} (hb : b ∈ r) :
    ∃ a ∈ l, f a = .ok b := by
  induction l generalizing r with
  | nil =>
    simp only [Proc.collect, Except.ok.injEq] at h
    subst h
    simp at hb
  | cons a l ih =>
    cases e : f a with
    | error x => simp [Proc.collect, e] at h
    | ok y =>
      cases e2 : Proc.collect f l with
      | error x => simp [Proc.collect, e, e2] at h
      | ok ys =>
        simp only [Proc.collect, e, e2, Except.ok.injEq] at h
        subst h
        rcases List.mem_cons.1 hb with rfl | hb
        · exact ⟨a, by simp, e⟩
        · obtain ⟨x, hx, hf⟩ := ih e2 hb
          exact ⟨x, by simp [hx], hf⟩

theorem pick_length {col : List T} {is : List ℕ} {r : List T} (h : Proc.pick col is = .ok r) : r.length = is.length := by
  unfold Proc.pick at h
  induction is generalizing r with
  | nil =>
    simp only [Proc.collect, Except.ok.injEq] at h
    subst h
    rfl
  | cons a l ih =>
    rw [Proc.collect] at h
    split at h
    · simp at h
    · split at h
      · simp at h
      · rename_i e
        simp only [Except.ok.injEq] at h
        subst h
        simp [ih e]

theorem row_empty (argsort : List T → List ℕ) (row freqs : List T) (N : ℕ) (r : List T) (h : resonanceRow argsort row freqs N = .ok r) : r = [] ∧ N ≤ 1 := by
  unfold resonanceRow at h
  simp only [bind, Except.bind] at h
  split at h
  · simp at h
  · split at h
    · simp at h
    · split at h
      · simp at h
      · split at h
        · simp at h
        · rename_i best _ _ fs e
          have hl := pick_length e
          rcases plusNone_cases fs ((N : ℤ) - (Proc.lastN N best).length) with ⟨h1, h2, h3, h4⟩ | h1 | h1
          · rw [h1] at h
            refine ⟨(Except.ok.inj h).symm, ?_⟩
            rcases h2 with rfl | h2
            · simp only [List.length_nil] at hl
              omega
            · omega
          · rw [h1] at h; simp at h
          · rw [h1] at h; simp at h

/-- **C105, refuted.** The function is to give for every field the frequencies of the `N` largest extrema, filled up with `None`. It never gives a
frequency: whatever it returns, every line is empty (and for two layers or more it returns only if there are no fields). -/
theorem C105_refuted (argsort : List T → List ℕ) (spectrum : List (List T)) (hs freqs : List T) (N mx my : ℕ) (r : List (T × List T))
    (h : resonanceLines argsort spectrum hs freqs N mx my = .ok r) : ∀ p ∈ r, p.2 = [] ∧ N ≤ 1 := by
  intro p hp
  obtain ⟨i, -, hi⟩ := collect_mem h hp
  split at hi
  · rename_i row hv _ _
    cases e : resonanceRow argsort row (freqs.drop my) N with
    | error x => simp [e, bind, Except.bind] at hi
    | ok fs =>
      simp only [e, bind, Except.bind, Except.ok.injEq] at hi
      rw [← hi]
      exact row_empty argsort row _ N fs e
  · simp at hi

end

theorem sign_real (x : ℝ) : sign x = if 0 < x then 1 else if x < 0 then -1 else 0 := by
  simp [sign]

/-- It does return: one field, one layer, a spectrum with a peak. -/
example : resonanceLines (fun l : List ℝ => List.range l.length) [[1, 2, 1]] [5] [7, 8, 9] 1 0 0 = .ok [(5, [])] := by
  have hg : gradient [(1 : ℝ), 2, 1] = .ok [1, 0, -1] := by norm_num [gradient, List.range_succ]
  have ht : turns [(1 : ℝ), 0, -1] = [0, 1] := by norm_num [turns, sign_real, List.range_succ, List.filter_cons]
  unfold resonanceLines resonanceRow
  simp [hg, ht, Proc.pick, Proc.collect, Proc.lastN, plusNone, List.range_succ, bind, Except.bind]

end View
