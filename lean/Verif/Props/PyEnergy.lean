import Verif.Model.PyEnergy
import Verif.Spec.PyEnergy
import Verif.Props.ComputeFft

set_option linter.unusedSectionVars false

/-!
# C94: energies computed from a log
-/

namespace Energy
open Spec
variable {T : Type} [Scalar T]

/-! ### Strings -/

theorem split_unique {a r s t : List Char} (ha : '_' ∉ a) (hr : '_' ∉ r) (h : s ++ '_' :: t = a ++ '_' :: r) : s = a ∧ t = r := by
  rcases List.append_eq_append_iff.1 h with ⟨c, h1, h2⟩ | ⟨c, h1, h2⟩
  · cases c with
    | nil => simp at h1 h2; exact ⟨h1.symm, h2⟩
    | cons x c =>
      simp only [List.cons_append, List.cons.injEq] at h2
      exact absurd (by rw [h1, ← h2.1]; simp) ha
  · cases c with
    | nil => simp at h1 h2; exact ⟨h1, h2.symm⟩
    | cons x c =>
      simp only [List.cons_append, List.cons.injEq] at h2
      exact absurd (by rw [h2.2]; simp) hr

theorem infix_after {a r p : List Char} (hp : '_' ∉ p) (ha : ¬ ('_' :: p) <:+: a) (hr : '_' ∉ r) :
    ('_' :: p) <:+: (a ++ '_' :: r) ↔ p <+: r := by
  constructor
  · rintro ⟨s, t, h⟩
    rw [List.append_assoc] at h
    rcases List.append_eq_append_iff.1 h with ⟨c, h1, h2⟩ | ⟨c, h1, h2⟩
    · cases c with
      | nil =>
        simp at h2
        exact ⟨t, h2⟩
      | cons x c =>
        simp only [List.cons_append, List.cons.injEq] at h2
        obtain ⟨rfl, h2⟩ := h2
        exfalso
        rcases List.append_eq_append_iff.1 h2 with ⟨d, h3, h4⟩ | ⟨d, h3, h4⟩
        · exact ha ⟨s, d, by rw [h1, h3]; simp⟩
        · cases d with
          | nil =>
            simp at h3
            exact ha ⟨s, [], by rw [h1, h3]; simp⟩
          | cons y d =>
            simp only [List.cons_append, List.cons.injEq] at h4
            exact hp (by rw [h3, ← h4.1]; simp)
    · cases c with
      | nil =>
        simp at h2
        exact ⟨t, h2.symm⟩
      | cons x c =>
        simp only [List.cons_append, List.cons.injEq] at h2
        exact absurd (by rw [h2.2]; simp) hr
  · rintro ⟨t, rfl⟩
    exact ⟨a, t, by simp⟩

theorem infix_before {a r : List Char} (ha : '_' ∉ a) (hr : '_' ∉ r) : ['J', '_'] <:+: (a ++ '_' :: r) ↔ a.getLast? = some 'J' := by
  constructor
  · rintro ⟨s, t, h⟩
    have := split_unique (s := s ++ ['J']) (t := t) ha hr (by rw [← h]; simp)
    rw [← this.1]
    simp
  · intro h
    obtain ⟨b, rfl⟩ := List.getLast?_eq_some_iff.1 h
    exact ⟨b, r, by simp⟩

theorem remove_plain {a : List Char} (ha : ¬ ['_', 'm', 'x'] <:+: a) : removeMx (a ++ ['_', 'm', 'x']) = a := by
  induction a with
  | nil => simp [removeMx]
  | cons c a ih =>
    have ih := ih fun h => ha (h.trans (List.suffix_cons c a).isInfix)
    rw [List.cons_append, removeMx, ih]
    intro r hc h
    match a with
    | [] => simp at h
    | [x] => simp at h
    | x :: y :: b =>
      simp only [List.cons_append, List.cons.injEq] at h
      exact ha ⟨[], b, by simp [hc, h.1, h.2.1]⟩

theorem takeWhile_plain (a r : List Char) : (a ++ '_' :: r).takeWhile (· != '_') = a.takeWhile (· != '_') := by
  induction a with
  | nil => simp
  | cons c a ih =>
    by_cases hc : c = '_'
    · simp [hc]
    · simp [hc, ih]

theorem takeWhile_all {a : List Char} (ha : '_' ∉ a) : a.takeWhile (· != '_') = a := by
  induction a with
  | nil => rfl
  | cons c a ih =>
    simp only [List.mem_cons, not_or] at ha
    have : c ≠ '_' := fun h => ha.1 h.symm
    simp [this, ih ha.2]

/-! ### The keys of a log with energies -/

/-- The parts after the id. -/
def sufs : List String := ["_K", "_Jbottom", "_Jtop", "_I", "_Hextx", "_Hiecx", "_Hanisx", "_Hdemagx", "_Hthx", "_Hexty", "_Hiecy",
  "_Hanisy", "_Hdemagy", "_Hthy", "_Hextz", "_Hiecz", "_Hanisz", "_Hdemagz", "_Hthz", "_mx", "_my", "_mz"]

theorem mem_columns (j : Junction T) (key : String) :
    key ∈ columns true j ↔ (∃ l ∈ j.layers, ∃ suf ∈ sufs, key = l.id ++ suf) ∨ key ∈ resistanceNames j ∨ key = "time" := by
  have hl : ∀ id : String, key ∈ layerColumns true id ↔ ∃ suf ∈ sufs, key = id ++ suf := by
    intro id
    have : layerColumns true id = sufs.map (id ++ ·) := by
      simp only [layerColumns, if_true, sufs, List.map_cons, List.map_nil, List.cons_append, List.nil_append]
    rw [this]
    simp only [List.mem_map]
    constructor
    · rintro ⟨a, h1, h2⟩; exact ⟨a, h1, h2.symm⟩
    · rintro ⟨a, h1, h2⟩; exact ⟨a, h1, h2.symm⟩
  unfold columns
  simp only [List.mem_append, List.mem_flatMap, List.mem_map, hl, List.mem_singleton, or_assoc]
  constructor
  · rintro (⟨a, ⟨l, h1, rfl⟩, h2⟩ | h)
    · exact .inl ⟨l, h1, h2⟩
    · exact .inr h
  · rintro (⟨l, h1, h2⟩ | h)
    · exact .inl ⟨l.id, ⟨l, h1, rfl⟩, h2⟩
    · exact .inr h

theorem sufs_shape : ∀ suf ∈ sufs, ∃ r, suf.toList = '_' :: r ∧ '_' ∉ r := by
  simp [sufs]

theorem sufs_field : ∀ suf ∈ sufs, ∀ r, suf.toList = '_' :: r → (['H'] <+: r ↔ ∃ F ∈ fieldNames, ∃ c ∈ ["x", "y", "z"], suf = "_" ++ F ++ c) := by
  simp [sufs, fieldNames]

theorem sufs_mx : ∀ suf ∈ sufs, ∀ r, suf.toList = '_' :: r → (['m', 'x'] <+: r ↔ suf = "_mx") := by
  simp [sufs]

theorem contains_field {id suf : String} (ha : ¬ ['_', 'H'] <:+: id.toList) (hs : suf ∈ sufs) :
    contains (id ++ suf) "_H" = true ↔ ∃ F ∈ fieldNames, ∃ c ∈ ["x", "y", "z"], suf = "_" ++ F ++ c := by
  obtain ⟨r, h1, h2⟩ := sufs_shape suf hs
  rw [← sufs_field suf hs r h1, contains, decide_eq_true_eq, String.toList_append, h1, show "_H".toList = ['_', 'H'] by simp, infix_after (by simp) ha h2]

theorem contains_mx {id suf : String} (ha : ¬ ['_', 'm', 'x'] <:+: id.toList) (hs : suf ∈ sufs) : contains (id ++ suf) "_mx" = true ↔ suf = "_mx" := by
  obtain ⟨r, h1, h2⟩ := sufs_shape suf hs
  rw [← sufs_mx suf hs r h1, contains, decide_eq_true_eq, String.toList_append, h1, show "_mx".toList = ['_', 'm', 'x'] by simp, infix_after (by simp) ha h2]

theorem chop_char (k : String) : ∀ c ∈ ["x", "y", "z"], chop (k ++ c) = k := by
  simp [chop]

/-- What `compute_from_log` is given: the log of a junction whose runs all logged energies. -/
structure Logged (j : Junction T) (log : Log T) (n : ℕ) : Prop where
  pos : n ≠ 0
  nodup : log.keys.Nodup
  keys : ∀ key, key ∈ log.keys ↔ key ∈ columns true j
  length : ∀ key ∈ log.keys, (log.col key).length = n

/-- No id and no name of a resistance contains `_H` or `_mx`. -/
structure PlainNames (j : Junction T) : Prop where
  idH : ∀ l ∈ j.layers, ¬ ['_', 'H'] <:+: l.id.toList
  idMx : ∀ l ∈ j.layers, ¬ ['_', 'm', 'x'] <:+: l.id.toList
  noH : ∀ key ∈ resistanceNames j, ¬ ['_', 'H'] <:+: key.toList
  noMx : ∀ key ∈ resistanceNames j, ¬ ['_', 'm', 'x'] <:+: key.toList

theorem field_key (id F c : String) : id ++ ("_" ++ F ++ c) = id ++ "_" ++ F ++ c := by simp only [String.append_assoc]

theorem Logged.fields {j : Junction T} {log : Log T} {n : ℕ} (h : Logged j log n) (hp : PlainNames j) {fks : List String} (hf : IsFieldKeys log fks)
    (k : String) : k ∈ fks ↔ ∃ l ∈ j.layers, ∃ F ∈ fieldNames, k = l.id ++ "_" ++ F := by
  rw [hf.2]
  constructor
  · rintro ⟨key, h1, h2, rfl⟩
    rcases (mem_columns j key).1 ((h.keys key).1 h1) with ⟨l, hl, suf, hs, rfl⟩ | hr | rfl
    · obtain ⟨F, hF, c, hc, rfl⟩ := (contains_field (hp.idH l hl) hs).1 h2
      exact ⟨l, hl, F, hF, by rw [field_key, chop_char _ c hc]⟩
    · rw [contains, decide_eq_true_eq, show "_H".toList = ['_', 'H'] by simp] at h2
      exact absurd h2 (hp.noH key hr)
    · simp [contains] at h2
      exact absurd h2 (by decide)
  · rintro ⟨l, hl, F, hF, rfl⟩
    have hs : "_" ++ F ++ "x" ∈ sufs := by
      simp only [fieldNames, List.mem_cons, List.not_mem_nil, or_false] at hF
      rcases hF with rfl | rfl | rfl | rfl | rfl <;> simp [sufs]
    refine ⟨l.id ++ ("_" ++ F ++ "x"), (h.keys _).2 ((mem_columns j _).2 (.inl ⟨l, hl, _, hs, rfl⟩)), (contains_field (hp.idH l hl) hs).2
      ⟨F, hF, "x", by simp, rfl⟩, ?_⟩
    rw [field_key, chop_char _ "x" (by simp)]

/-- The vectors of three columns. -/
def rows (log : Log T) (a b c : String) (n : ℕ) : List (CVec T) :=
  (List.range n).map fun r => ⟨(log.col a).getD r 0, (log.col b).getD r 0, (log.col c).getD r 0⟩

theorem Logged.vectors {j : Junction T} {log : Log T} {n : ℕ} (h : Logged j log n) {a b c : String} (ha : a ∈ columns true j)
    (hb : b ∈ columns true j) (hc : c ∈ columns true j) : vectors log a b c = .ok (rows log a b c n) := by
  have h1 := (h.keys _).2 ha
  have h2 := (h.keys _).2 hb
  have h3 := (h.keys _).2 hc
  have l1 := h.length _ h1
  have l2 := h.length _ h2
  have l3 := h.length _ h3
  unfold Energy.vectors
  rw [(Compute.has_iff _ _).2 h1, (Compute.has_iff _ _).2 h2, (Compute.has_iff _ _).2 h3]
  simp only [Bool.not_true, Bool.false_eq_true, if_false]
  rw [if_pos ⟨by omega, by omega⟩]
  congr 1
  apply List.ext_getElem (by simp [rows, l1, l2, l3])
  intro i i1 i2
  have hi : i < n := by simpa [rows] using i2
  simp [rows, l1, l2, l3, hi]

theorem mem_layer {j : Junction T} {l : Layer T} (hl : l ∈ j.layers) {suf : String} (hs : suf ∈ sufs) : l.id ++ suf ∈ columns true j :=
  (mem_columns j _).2 (.inl ⟨l, hl, suf, hs, rfl⟩)

theorem Logged.mags {j : Junction T} {log : Log T} {n : ℕ} (h : Logged j log n) (hp : PlainNames j) (keys : List String)
    (hk : ∀ key ∈ keys, key ∈ columns true j) :
    ∃ ms, magVectors log keys = .ok ms ∧
      (∀ p ∈ ms, ∃ l ∈ j.layers, p = (l.id, rows log (l.id ++ "_mx") (l.id ++ "_my") (l.id ++ "_mz") n)) ∧
      ∀ l ∈ j.layers, l.id ++ "_mx" ∈ keys → (l.id, rows log (l.id ++ "_mx") (l.id ++ "_my") (l.id ++ "_mz") n) ∈ ms := by
  induction keys with
  | nil => exact ⟨[], rfl, by simp, by simp⟩
  | cons key keys ih =>
    obtain ⟨ms, e1, e2, e3⟩ := ih fun k hk' => hk k (by simp [hk'])
    unfold magVectors
    by_cases hc : contains key "_mx" = true
    · rw [if_pos hc]
      obtain ⟨l, hl, hkey⟩ : ∃ l ∈ j.layers, key = l.id ++ "_mx" := by
        rcases (mem_columns j key).1 (hk key (by simp)) with ⟨l, hl, suf, hs, rfl⟩ | hr | rfl
        · exact ⟨l, hl, by rw [(contains_mx (hp.idMx l hl) hs).1 hc]⟩
        · rw [contains, decide_eq_true_eq, show "_mx".toList = ['_', 'm', 'x'] by simp] at hc
          exact absurd hc (hp.noMx key hr)
        · simp [contains] at hc
          exact absurd hc (by decide)
      have hrem : String.ofList (removeMx key.toList) = l.id := by
        rw [hkey, String.toList_append, show "_mx".toList = ['_', 'm', 'x'] by simp, remove_plain (hp.idMx l hl), String.ofList_toList]
      simp only [hrem, h.vectors (mem_layer hl (by simp [sufs] : "_mx" ∈ sufs)) (mem_layer hl (by simp [sufs] : "_my" ∈ sufs))
        (mem_layer hl (by simp [sufs] : "_mz" ∈ sufs)), e1]
      refine ⟨_, rfl, ?_, ?_⟩
      · intro p hp'
        rcases List.mem_cons.1 hp' with rfl | hp'
        · exact ⟨l, hl, rfl⟩
        · exact e2 p hp'
      · intro l' hl' hm
        rcases List.mem_cons.1 hm with hm | hm
        · have : l'.id = l.id := Compute.append_inj _ _ _ (hm.trans hkey)
          rw [this]
          simp
        · exact List.mem_cons_of_mem _ (e3 l' hl' hm)
    · rw [if_neg hc, e1]
      refine ⟨ms, rfl, e2, fun l hl hm => ?_⟩
      rcases List.mem_cons.1 hm with hm | hm
      · exact absurd (hm ▸ (contains_mx (hp.idMx l hl) (by simp [sufs])).2 rfl) hc
      · exact e3 l hl hm

theorem find_mags {j : Junction T} {log : Log T} {n : ℕ} {ms : List (String × List (CVec T))}
    (h : ∀ p ∈ ms, ∃ l ∈ j.layers, p = (l.id, rows log (l.id ++ "_mx") (l.id ++ "_my") (l.id ++ "_mz") n)) {id : String}
    (hid : ∃ vs, (id, vs) ∈ ms) : ms.find? (·.1 == id) = some (id, rows log (id ++ "_mx") (id ++ "_my") (id ++ "_mz") n) := by
  obtain ⟨vs, hvs⟩ := hid
  rcases hf : ms.find? (·.1 == id) with _ | ⟨k, ws⟩
  · have := List.find?_eq_none.1 hf _ hvs
    simp at this
  · have h1 := List.find?_some hf
    have h2 := List.mem_of_find?_eq_some hf
    obtain ⟨l, -, hl⟩ := h _ h2
    have hk : k = id := by simpa using h1
    subst hk
    simp only [Prod.mk.injEq] at hl
    rw [hf, hl.2, ← hl.1]

/-! ### The loop -/

theorem before_first {id o F : String} (h : Before id o) : firstPart (id ++ "_" ++ F) = o := by
  obtain ⟨ho, rfl | ⟨r, rfl⟩⟩ := h
  · simp only [firstPart, String.toList_append, show "_".toList = ['_'] by simp, List.append_assoc, List.singleton_append, takeWhile_plain,
      takeWhile_all ho, String.ofList_toList]
  · simp only [firstPart, String.toList_append, show "_".toList = ['_'] by simp, List.append_assoc, List.singleton_append]
    rw [List.cons_append, takeWhile_plain, takeWhile_all ho, String.ofList_toList]

theorem takeWhile_none (a : List Char) : '_' ∉ a.takeWhile (· != '_') := by
  induction a with
  | nil => simp
  | cons c a ih =>
    by_cases hc : c = '_'
    · simp [hc]
    · have : '_' ≠ c := fun h => hc h.symm
      simpa [hc, this] using ih

theorem before_exists (id : String) : ∃ o, Before id o := by
  refine ⟨String.ofList (id.toList.takeWhile (· != '_')), ?_, ?_⟩
  · rw [String.toList_ofList]
    exact takeWhile_none _
  · have h := List.takeWhile_append_dropWhile (p := (· != '_')) (l := id.toList)
    rcases hd : id.toList.dropWhile (· != '_') with _ | ⟨c, r⟩
    · left
      rw [hd, List.append_nil] at h
      rw [h, String.ofList_toList]
    · right
      have hc : c = '_' := by
        have := List.head?_dropWhile_not (· != '_') id.toList
        rw [hd] at this
        simpa using this
      refine ⟨String.ofList r, String.toList_injective ?_⟩
      simp only [String.toList_append, String.toList_ofList, show "_".toList = ['_'] by simp, List.append_assoc, List.singleton_append]
      rw [hd, hc] at h
      exact h.symm

/-- Row `r` of the energy density of the field `fk` and the magnetisation of `o`. -/
def rowOf (log : Log T) (d : T) (o fk : String) (r : ℕ) : T :=
  -((log.col (o ++ "_mx")).getD r 0 * (log.col (fk ++ "x")).getD r 0 + (log.col (o ++ "_my")).getD r 0 * (log.col (fk ++ "y")).getD r 0 +
    (log.col (o ++ "_mz")).getD r 0 * (log.col (fk ++ "z")).getD r 0) / d

theorem Logged.loop {j : Junction T} {log : Log T} {n : ℕ} (h : Logged j log n) {ms : List (String × List (CVec T))}
    (hms : ∀ p ∈ ms, ∃ l ∈ j.layers, p = (l.id, rows log (l.id ++ "_mx") (l.id ++ "_my") (l.id ++ "_mz") n))
    (hall : ∀ l ∈ j.layers, ∃ vs, (l.id, vs) ∈ ms) (S t : T) (fks : List String)
    (hf : ∀ fk ∈ fks, ∃ l ∈ j.layers, ∃ F ∈ fieldNames, fk = l.id ++ "_" ++ F) :
    ((∀ fk ∈ fks, ∃ o ∈ j.layers, firstPart fk = o.id) →
      loop S t log ms fks = .ok (fks.map fun fk => ("energy_" ++ fk, (List.range n).map (rowOf log (divisor S t fk) (firstPart fk) fk)))) ∧
    ((∃ fk ∈ fks, ∀ o ∈ j.layers, firstPart fk ≠ o.id) → loop S t log ms fks = .error .keyError) := by
  induction fks with
  | nil => exact ⟨fun _ => rfl, by simp⟩
  | cons fk fks ih =>
    obtain ⟨ih1, ih2⟩ := ih fun k hk => hf k (by simp [hk])
    by_cases ho : ∃ o ∈ j.layers, firstPart fk = o.id
    · obtain ⟨o, ho, e⟩ := ho
      have hm := find_mags hms (hall o ho)
      obtain ⟨l, hl, F, hF, rfl⟩ := hf fk (by simp)
      have hs : ∀ c ∈ ["x", "y", "z"], l.id ++ "_" ++ F ++ c ∈ columns true j := by
        intro c hc
        rw [← field_key]
        refine mem_layer hl ?_
        simp only [fieldNames, List.mem_cons, List.not_mem_nil, or_false] at hF hc
        rcases hF with rfl | rfl | rfl | rfl | rfl <;> rcases hc with rfl | rfl | rfl <;> simp [sufs]
      have hv := h.vectors (hs "x" (by simp)) (hs "y" (by simp)) (hs "z" (by simp))
      have he : ∀ d, energyOf (rows log (o.id ++ "_mx") (o.id ++ "_my") (o.id ++ "_mz") n)
          (rows log (l.id ++ "_" ++ F ++ "x") (l.id ++ "_" ++ F ++ "y") (l.id ++ "_" ++ F ++ "z") n) d =
          .ok ((List.range n).map (rowOf log d o.id (l.id ++ "_" ++ F))) := by
        intro d
        unfold energyOf
        simp only
        rw [if_pos (by simp [rows])]
        congr 1
        apply List.ext_getElem (by simp [rows])
        intro i i1 i2
        simp [rows, rowOf]
      unfold Energy.loop
      rw [e, hm]
      simp only [hv, he]
      constructor
      · intro hk
        rw [ih1 fun k hk' => hk k (by simp [hk'])]
        simp [e]
      · rintro ⟨k, hk, hk'⟩
        rcases List.mem_cons.1 hk with rfl | hk
        · exact absurd e (hk' o ho)
        · rw [ih2 ⟨k, hk, hk'⟩]
    · constructor
      · intro hk
        exact absurd (hk fk (by simp)) ho
      · intro _
        have : ms.find? (·.1 == firstPart fk) = none := by
          rw [List.find?_eq_none]
          intro p hp hc
          obtain ⟨l, hl, rfl⟩ := hms p hp
          exact ho ⟨l, hl, (by simpa using hc : l.id = _).symm⟩
        unfold Energy.loop
        rw [this]

theorem col_map (f : String → List T) (fks : List String) (hn : fks.Nodup) {fk : String} (h : fk ∈ fks) :
    (Log.col (fks.map fun k => ("energy_" ++ k, f k)) ("energy_" ++ fk)) = f fk := by
  induction fks with
  | nil => simp at h
  | cons k fks ih =>
    simp only [List.map_cons, Log.col]
    by_cases hk : k = fk
    · rw [if_pos (by rw [hk]), hk]
    · rw [if_neg]
      · exact ih (List.nodup_cons.1 hn).2 ((List.mem_cons.1 h).resolve_left fun e => hk e.symm)
      · intro e
        have := congrArg String.toList e
        simp only [String.toList_append, List.append_cancel_left_eq] at this
        exact hk (String.toList_injective this)

/-- With the given names, energies are computed if and only if the part of every id before its first underscore is the id of a layer of the junction;
the magnetisation is that of this layer. -/
theorem Logged.compute {j : Junction T} {log : Log T} {n : ℕ} (h : Logged j log n) (hp : PlainNames j) {fks : List String} (hf : IsFieldKeys log fks)
    (S t : T) :
    ((∀ l ∈ j.layers, ∃ o ∈ j.layers, Before l.id o.id) →
      ∃ out, computeFromLog S t log fks = .ok out ∧ out.keys.Nodup ∧
        (∀ key, key ∈ out.keys ↔ ∃ l ∈ j.layers, ∃ F ∈ fieldNames, key = "energy_" ++ (l.id ++ "_" ++ F)) ∧
        ∀ l ∈ j.layers, ∀ F ∈ fieldNames, ∀ o, Before l.id o →
          out.col ("energy_" ++ (l.id ++ "_" ++ F)) = (List.range n).map (energyRow log (divisor S t (l.id ++ "_" ++ F)) o l.id F)) ∧
    ((∃ l ∈ j.layers, ∀ o ∈ j.layers, ¬ Before l.id o.id) → computeFromLog S t log fks = .error .keyError) := by
  obtain ⟨ms, e1, e2, e3⟩ := h.mags hp log.keys fun key hk => (h.keys key).1 hk
  have hall : ∀ l ∈ j.layers, ∃ vs, (l.id, vs) ∈ ms :=
    fun l hl => ⟨_, e3 l hl ((h.keys _).2 (mem_layer hl (by simp [sufs])))⟩
  have hks := h.fields hp hf
  obtain ⟨l1, l2⟩ := h.loop e2 hall S t fks fun fk hk => (hks fk).1 hk
  have hsome : ∀ l ∈ j.layers, l.id ++ "_" ++ "Hext" ∈ fks := fun l hl => (hks _).2 ⟨l, hl, "Hext", by simp [fieldNames], rfl⟩
  unfold computeFromLog
  rw [e1]
  constructor
  · intro hb
    refine ⟨_, l1 ?_, ?_, ?_, ?_⟩
    · intro fk hk
      obtain ⟨l, hl, F, -, rfl⟩ := (hks fk).1 hk
      obtain ⟨o, ho, hlo⟩ := hb l hl
      exact ⟨o, ho, before_first hlo⟩
    · rw [Log.keys, List.map_map]
      refine hf.1.map ?_
      intro a b hab
      have := congrArg String.toList hab
      simp only [Function.comp, String.toList_append, List.append_cancel_left_eq] at this
      exact String.toList_injective this
    · intro key
      rw [Log.keys, List.map_map, List.mem_map]
      constructor
      · rintro ⟨k, hk, rfl⟩
        obtain ⟨l, hl, F, hF, rfl⟩ := (hks k).1 hk
        exact ⟨l, hl, F, hF, rfl⟩
      · rintro ⟨l, hl, F, hF, rfl⟩
        exact ⟨_, (hks _).2 ⟨l, hl, F, hF, rfl⟩, rfl⟩
    · intro l hl F hF o ho
      rw [col_map _ fks hf.1 ((hks _).2 ⟨l, hl, F, hF, rfl⟩), before_first ho]
      rfl
  · rintro ⟨l, hl, hno⟩
    refine l2 ⟨_, hsome l hl, fun o ho e => hno o ho ?_⟩
    obtain ⟨o', ho'⟩ := before_exists l.id
    rw [before_first ho'] at e
    exact e ▸ ho'

theorem divisor_ids {id F : String} (h : '_' ∉ id.toList) (hF : F ∈ fieldNames) (S t : T) :
    (EndsWithJ id → divisor S t (id ++ "_" ++ F) = S) ∧ (¬ EndsWithJ id → divisor S t (id ++ "_" ++ F) = S * t) := by
  have hF' : '_' ∉ F.toList := by
    simp only [fieldNames, List.mem_cons, List.not_mem_nil, or_false] at hF
    rcases hF with rfl | rfl | rfl | rfl | rfl <;> simp
  have key : contains (id ++ "_" ++ F) "J_" = true ↔ EndsWithJ id := by
    rw [contains, decide_eq_true_eq, EndsWithJ, String.toList_append, String.toList_append, show "_".toList = ['_'] by simp,
      show "J_".toList = ['J', '_'] by simp, List.append_assoc, List.singleton_append, infix_before h hF', List.getLast?_eq_some_iff]
    constructor
    · rintro ⟨b, hb⟩; exact ⟨b, hb.symm⟩
    · rintro ⟨b, hb⟩; exact ⟨b, hb.symm⟩
  constructor
  · intro h'; rw [divisor, if_pos (key.2 h')]
  · intro h'; rw [divisor, if_neg fun e => h' (key.1 e)]

theorem plain_infix {a p : List Char} (h : '_' ∉ a) : ¬ ('_' :: p) <:+: a := by
  rintro ⟨s, t, rfl⟩
  simp at h

/-- Ids without underscores; in a classic two-layer junction, whose resistance is named after both, they do not begin with `H` or `mx`. -/
structure SimpleIds (j : Junction T) : Prop where
  ids : ∀ l ∈ j.layers, '_' ∉ l.id.toList
  start : j.mrMode = .CLASSIC → j.layers.length = 2 → ∀ l ∈ j.layers, ¬ ['H'] <+: l.id.toList ∧ ¬ ['m', 'x'] <+: l.id.toList

theorem SimpleIds.plain {j : Junction T} (h : SimpleIds j) : PlainNames j := by
  have two : ∀ (a b : String) (p : List Char), '_' ∉ a.toList → '_' ∉ b.toList → '_' ∉ p → ¬ p <+: a.toList → ¬ p <+: b.toList →
      ¬ ('_' :: p) <:+: ("R_" ++ a ++ "_" ++ b).toList := by
    intro a b p ha hb hp h1 h2 hin
    simp only [String.toList_append, show "_".toList = ['_'] by simp, List.append_assoc, List.singleton_append] at hin
    rw [show "R_".toList = ['R'] ++ '_' :: [] by simp, ← List.append_assoc, infix_after hp ?_ hb] at hin
    · exact h2 hin
    · rw [show ['R'] ++ ['_'] ++ a.toList = ['R'] ++ '_' :: a.toList by simp, infix_after hp (plain_infix (by simp)) ha]
      exact h1
  have names : ∀ p : List Char, '_' ∉ p → (j.mrMode = .CLASSIC → j.layers.length = 2 → ∀ l ∈ j.layers, ¬ p <+: l.id.toList) →
      ∀ key ∈ resistanceNames j, ¬ ('_' :: p) <:+: key.toList := by
    intro p hp hs key hk
    unfold resistanceNames at hk
    split at hk
    · rw [List.mem_singleton] at hk
      subst hk
      exact plain_infix (by simp)
    · rename_i a b hm hl
      rw [List.mem_singleton] at hk
      subst hk
      have hlen : j.layers.length = 2 := by simpa using congrArg List.length hl
      obtain ⟨la, hla, rfl⟩ := List.mem_map.1 (by rw [hl]; simp : a ∈ j.layers.map Layer.id)
      obtain ⟨lb, hlb, rfl⟩ := List.mem_map.1 (by rw [hl]; simp : b ∈ j.layers.map Layer.id)
      exact two _ _ p (h.ids la hla) (h.ids lb hlb) hp (hs hm hlen la hla) (hs hm hlen lb hlb)
    · simp only [List.mem_cons, List.not_mem_nil, or_false] at hk
      rcases hk with rfl | rfl | rfl <;> exact plain_infix (by simp)
    · simp at hk
  exact ⟨fun l hl => plain_infix (h.ids l hl), fun l hl => plain_infix (h.ids l hl),
    names ['H'] (by simp) fun a b l hl => (h.start a b l hl).1, names ['m', 'x'] (by simp) fun a b l hl => (h.start a b l hl).2⟩

/-! ### C94: energies from a log -/

/-- The log after a program of calls that all log energies, as far as something has been logged. -/
theorem logged (j0 : Junction T) (h0 : Constructed j0) (hd : DistinctIds j0) (hf : ∀ l ∈ j0.layers, l.includeSTT = false ∧ l.includeSOT = false)
    (cs : List (Call T)) (hc : ∀ c ∈ cs, c.energiesOnly true) (ht : ∀ c ∈ cs, c.noTorque) (hrun : (program cs j0).logLength ≠ 0) :
    Logged j0 (program cs j0).log (program cs j0).logLength := by
  obtain ⟨⟨h1, h2⟩, h3⟩ := Junction.C28_energies_partial j0 h0 hd hf cs hc ht
  exact ⟨hrun, h1, fun key => by rw [h3]; exact ⟨fun h => h.1, fun h => ⟨h, hrun⟩⟩, h2⟩

/-- **C94.** After any calls on a junction with distinct layer ids, all of whose runs log energies (no torques), and with simple ids:
`compute_from_log` succeeds whatever the order of the field keys, has exactly one column `energy_<id>_<field>` per layer and field, and each column
has, for every logged row, minus the scalar product of the layer's magnetisation and the field, divided by the volume
of the cell, or by its surface if the id ends with J. -/
theorem C94_energy_partial (j0 : Junction T) (h0 : Constructed j0) (hd : DistinctIds j0) (hf : ∀ l ∈ j0.layers, l.includeSTT = false ∧ l.includeSOT = false)
    (cs : List (Call T)) (hc : ∀ c ∈ cs, c.energiesOnly true) (ht : ∀ c ∈ cs, c.noTorque) (hrun : (program cs j0).logLength ≠ 0)
    (hids : SimpleIds j0) (S t : T) (fks : List String) (hk : IsFieldKeys (program cs j0).log fks) :
    ∃ out, computeFromLog S t (program cs j0).log fks = .ok out ∧ out.keys.Nodup ∧
      (∀ key, key ∈ out.keys ↔ ∃ l ∈ j0.layers, ∃ F ∈ fieldNames, key = "energy_" ++ (l.id ++ "_" ++ F)) ∧
      ∀ l ∈ j0.layers, ∀ F ∈ fieldNames,
        (¬ EndsWithJ l.id → out.col ("energy_" ++ (l.id ++ "_" ++ F)) =
          (List.range (program cs j0).logLength).map (energyRow (program cs j0).log (S * t) l.id l.id F)) ∧
        (EndsWithJ l.id → out.col ("energy_" ++ (l.id ++ "_" ++ F)) =
          (List.range (program cs j0).logLength).map (energyRow (program cs j0).log S l.id l.id F)) := by
  obtain ⟨out, e1, e2, e3, e4⟩ := ((logged j0 h0 hd hf cs hc ht hrun).compute hids.plain hk S t).1 fun l hl => ⟨l, hl, hids.ids l hl, .inl rfl⟩
  refine ⟨out, e1, e2, e3, fun l hl F hF => ?_⟩
  have := e4 l hl F hF l.id ⟨hids.ids l hl, .inl rfl⟩
  obtain ⟨d1, d2⟩ := divisor_ids (hids.ids l hl) hF S t
  exact ⟨fun h => by rw [this, d2 h], fun h => by rw [this, d1 h]⟩

/-- **C94, underscores.** With an underscore in an id, the magnetisation is looked up under the part before it: if no layer of the junction has this
part as its id the computation ends with a KeyError, otherwise the magnetisation of that other layer is used. -/
theorem C94_underscore (j0 : Junction T) (h0 : Constructed j0) (hd : DistinctIds j0)
    (hf : ∀ l ∈ j0.layers, l.includeSTT = false ∧ l.includeSOT = false) (cs : List (Call T)) (hc : ∀ c ∈ cs, c.energiesOnly true)
    (ht : ∀ c ∈ cs, c.noTorque) (hrun : (program cs j0).logLength ≠ 0) (hp : PlainNames j0) (S t : T) (fks : List String)
    (hk : IsFieldKeys (program cs j0).log fks) :
    ((∃ l ∈ j0.layers, ∀ o ∈ j0.layers, ¬ Before l.id o.id) → computeFromLog S t (program cs j0).log fks = .error .keyError) ∧
    ((∀ l ∈ j0.layers, ∃ o ∈ j0.layers, Before l.id o.id) →
      ∃ out, computeFromLog S t (program cs j0).log fks = .ok out ∧
        ∀ l ∈ j0.layers, ∀ F ∈ fieldNames, ∀ o ∈ j0.layers, Before l.id o.id → ∃ d, (d = S ∨ d = S * t) ∧
          out.col ("energy_" ++ (l.id ++ "_" ++ F)) =
            (List.range (program cs j0).logLength).map (energyRow (program cs j0).log d o.id l.id F)) := by
  obtain ⟨c1, c2⟩ := (logged j0 h0 hd hf cs hc ht hrun).compute hp hk S t
  refine ⟨c2, fun h => ?_⟩
  obtain ⟨out, e1, -, -, e4⟩ := c1 h
  refine ⟨out, e1, fun l hl F hF o _ hb => ⟨divisor S t (l.id ++ "_" ++ F), ?_, e4 l hl F hF _ hb⟩⟩
  unfold divisor
  split
  · exact .inl rfl
  · exact .inr rfl

theorem loop_missing (S t : T) (log : Log T) (ms : List (String × List (CVec T))) (fks : List String) {fk : String} (h : fk ∈ fks)
    (hm : ∀ p ∈ ms, p.1 ≠ firstPart fk) : ∀ out, loop S t log ms fks ≠ .ok out := by
  induction fks with
  | nil => simp at h
  | cons k fks ih =>
    intro out
    unfold loop
    rcases hf : ms.find? (·.1 == firstPart k) with _ | ⟨o, m⟩
    · rw [hf]
      simp
    · rw [hf]
      have hk : fk ∈ fks := by
        refine (List.mem_cons.1 h).resolve_left ?_
        rintro rfl
        have := List.find?_some hf
        exact hm _ (List.mem_of_find?_eq_some hf) (by simpa using this)
      simp only
      split
      · simp
      · split
        · simp
        · rcases hl : loop S t log ms fks with e | r
          · simp
          · exact absurd hl (ih hk r)

theorem mags_keys (log : Log T) (keys : List String) {ms : List (String × List (CVec T))} (h : magVectors log keys = .ok ms) :
    ∀ p ∈ ms, log.has (p.1 ++ "_mx") = true := by
  induction keys generalizing ms with
  | nil =>
    simp only [magVectors, Except.ok.injEq] at h
    subst h
    simp
  | cons key keys ih =>
    unfold magVectors at h
    split at h
    · dsimp only at h
      split at h
      · simp at h
      · rename_i vs hv
        split at h
        · simp at h
        · rename_i r hr
          simp only [Except.ok.injEq] at h
          subst h
          intro p hp
          rcases List.mem_cons.1 hp with rfl | hp
          · unfold Energy.vectors at hv
            by_contra hc
            simp only [Bool.not_eq_true] at hc
            rw [hc] at hv
            simp at hv
          · exact ih hr p hp
    · exact ih h

/-- **C94, other columns.** A column whose name contains `_H` and which does not begin with the id of a layer: no energies are computed. -/
theorem C94_foreign (log : Log T) (key : String) (h1 : key ∈ log.keys) (h2 : contains key "_H" = true)
    (h3 : log.has (firstPart (chop key) ++ "_mx") = false) (S t : T) (fks : List String) (hk : IsFieldKeys log fks) :
    ∀ out, computeFromLog S t log fks ≠ .ok out := by
  intro out
  unfold computeFromLog
  rcases hm : magVectors log log.keys with e | ms
  · simp
  · refine loop_missing S t log ms fks ((hk.2 _).2 ⟨key, h1, h2, rfl⟩) (fun p hp e => ?_) out
    have := mags_keys log _ hm p hp
    rw [e, h3] at this
    simp at this

/-- **C94, refuted.** A classic junction of two layers, one of whose ids begins with H: no energies are computed (the name `R_a_b` of the
resistance is taken for a field), unless the log has the column `R_mx`. -/
theorem C94_names_refuted (j0 : Junction T) (h0 : Constructed j0) (hd : DistinctIds j0)
    (hf : ∀ l ∈ j0.layers, l.includeSTT = false ∧ l.includeSOT = false) (cs : List (Call T)) (hc : ∀ c ∈ cs, c.energiesOnly true)
    (ht : ∀ c ∈ cs, c.noTorque) (hrun : (program cs j0).logLength ≠ 0) (hm : j0.mrMode = .CLASSIC) {a b : String}
    (hl : j0.layers.map Layer.id = [a, b]) (hab : ['H'] <+: a.toList ∨ ['H'] <+: b.toList) (hR : "R_mx" ∉ columns true j0) (S t : T)
    (fks : List String) (hk : IsFieldKeys (program cs j0).log fks) : ∀ out, computeFromLog S t (program cs j0).log fks ≠ .ok out := by
  have hlog := logged j0 h0 hd hf cs hc ht hrun
  have hname : "R_" ++ a ++ "_" ++ b ∈ resistanceNames j0 := by
    unfold resistanceNames
    rw [hm, hl]
    simp
  refine C94_foreign _ _ ((hlog.keys _).2 ((mem_columns j0 _).2 (.inr (.inl hname)))) ?_ ?_ S t fks hk
  · rw [contains, decide_eq_true_eq, show "_H".toList = ['_', 'H'] by simp]
    simp only [String.toList_append, show "_".toList = ['_'] by simp, show "R_".toList = ['R', '_'] by simp]
    rcases hab with ⟨r, h⟩ | ⟨r, h⟩
    · rw [← h]; exact ⟨['R'], r ++ ['_'] ++ b.toList, by simp⟩
    · rw [← h]; exact ⟨['R', '_'] ++ a.toList, r, by simp⟩
  · have : firstPart (chop ("R_" ++ a ++ "_" ++ b)) = "R" := by
      unfold firstPart chop
      rw [String.toList_ofList]
      simp only [String.toList_append, show "_".toList = ['_'] by simp, show "R_".toList = ['R', '_'] by simp]
      apply String.toList_injective
      rw [String.toList_ofList]
      have : (['R', '_'] ++ a.toList ++ ['_'] ++ b.toList).dropLast = 'R' :: '_' :: (a.toList ++ ['_'] ++ b.toList).dropLast := by
        rcases hq : a.toList ++ ['_'] ++ b.toList with _ | ⟨c, r⟩
        · simp at hq
        · rw [List.append_assoc, List.append_assoc, ← List.append_assoc a.toList, hq]
          simp
      rw [this]
      simp
    rw [this, show "R" ++ "_mx" = "R_mx" by simp, Bool.eq_false_iff]
    intro h
    exact hR ((hlog.keys _).1 ((Compute.has_iff _ _).1 h))

/-! ### The hypotheses can be met -/

theorem fieldKeys_exist (log : Log T) : ∃ fks, IsFieldKeys log fks := by
  refine ⟨((log.keys.filter fun key => contains key "_H").map chop).dedup, List.nodup_dedup _, fun k => ?_⟩
  simp [and_assoc]

/-- helper: a classic junction of two layers with the given ids -/
noncomputable def pairJ (a b : String) : Junction ℝ :=
  { Junction.demoJ with
    mrMode := .CLASSIC, layers := [{ Junction.quietLayer with id := a }, { Junction.quietLayer with id := b }],
    Rp := 100, Rap := 200, Rtag := "R_" ++ a ++ "_" ++ b }

/-- Every pair of different ids has a junction and a run with energies that logs one row. -/
theorem pair_run (a b : String) (hab : a ≠ b) :
    Constructed (pairJ a b) ∧ DistinctIds (pairJ a b) ∧ (∀ l ∈ (pairJ a b).layers, l.includeSTT = false ∧ l.includeSOT = false) ∧
    (program [.run 1 1 1 true .RK4] (pairJ a b)).logLength ≠ 0 := by
  have hc : Constructed (pairJ a b) := by
    refine .inr (.inl ⟨[{ Junction.quietLayer with id := a }, { Junction.quietLayer with id := b }], 100, 200, ?_⟩)
    simp [Junction.classic, Junction.plain, pairJ, Junction.demoJ]
  have hR : Reachable (pairJ a b) := ⟨_, [], hc, rfl⟩
  have hd : DistinctIds (pairJ a b) := by simp [DistinctIds, pairJ, hab]
  refine ⟨hc, hd, by simp [pairJ, Junction.quietLayer, plainOf, Layer.demo], ?_⟩
  obtain ⟨k, hk⟩ := Junction.one_step_run (pairJ a b) hR (by simp [pairJ, Junction.quietLayer, plainOf, Layer.demo])
    (by simp [pairJ, Junction.quietLayer, plainOf, Layer.demo, Noisy]) true
  have : program [.run 1 1 1 true .RK4] (pairJ a b) = k := Junction.exec_st hk
  rw [this]
  obtain ⟨q2, b1, -, N, W, hN, hW, rfl⟩ := Junction.run_layer_column hR hd hk (l := { Junction.quietLayer with id := a }) (by simp [pairJ]) Junction.suf_K 1
    (fun l' _ => by rw [Junction.vals_K]; rfl)
  rw [Junction.one_sample hN hW] at b1
  rw [b1]
  simp

/-- **C94, refuted for ids with an underscore**: for the junction of `free` and `pinned_1` the energies of a log are refused with a KeyError, whatever
the order of the keys. -/
theorem C94_underscore_refuted : ∃ (j0 : Junction ℝ) (cs : List (Call ℝ)), Constructed j0 ∧ DistinctIds j0 ∧ (program cs j0).logLength ≠ 0 ∧
    (∃ fks, IsFieldKeys (program cs j0).log fks) ∧
    ∀ S t fks, IsFieldKeys (program cs j0).log fks → computeFromLog S t (program cs j0).log fks = .error .keyError := by
  obtain ⟨h1, h2, h3, h4⟩ := pair_run "free" "pinned_1" (by decide)
  refine ⟨_, _, h1, h2, h4, fieldKeys_exist _, fun S t fks hk => ?_⟩
  refine (C94_underscore _ h1 h2 h3 _ (by simp [Call.energiesOnly]) (by simp [Call.noTorque]) h4 ⟨?_, ?_, ?_, ?_⟩ S t fks hk).1 ?_
  · simp only [pairJ, List.mem_cons, List.not_mem_nil, or_false, forall_eq_or_imp, forall_eq]
    constructor <;> simp <;> decide
  · simp only [pairJ, List.mem_cons, List.not_mem_nil, or_false, forall_eq_or_imp, forall_eq]
    constructor <;> simp <;> decide
  · simp [resistanceNames, pairJ]
    decide
  · simp [resistanceNames, pairJ]
    decide
  · refine ⟨{ Junction.quietLayer with id := "pinned_1" }, by simp [pairJ], ?_⟩
    simp only [pairJ, List.mem_cons, List.not_mem_nil, or_false, forall_eq_or_imp, forall_eq]
    constructor
    · rintro ⟨-, h | ⟨r, h⟩⟩
      · simp at h
      · have := congrArg String.toList h
        simp at this
    · rintro ⟨h, -⟩
      simp at h

/-- Hypotheses of C94_energy_partial. -/
example : ∃ fks out, computeFromLog (T := ℝ) 2 3 (program [.run 1 1 1 true .RK4] (pairJ "free" "topJ")).log fks = .ok out ∧
    "energy_topJ_Hiec" ∈ out.keys := by
  obtain ⟨h1, h2, h3, h4⟩ := pair_run "free" "topJ" (by decide)
  obtain ⟨fks, hk⟩ := fieldKeys_exist (program [.run 1 1 1 true .RK4] (pairJ "free" "topJ")).log
  obtain ⟨out, e1, -, e2, -⟩ := C94_energy_partial _ h1 h2 h3 [.run 1 1 1 true .RK4] (by simp [Call.energiesOnly]) (by simp [Call.noTorque]) h4
    ⟨by simp [pairJ], by simp [pairJ]⟩ 2 3 fks hk
  exact ⟨fks, out, e1, (e2 _).2 ⟨{ Junction.quietLayer with id := "topJ" }, by simp [pairJ], "Hiec", by simp [fieldNames], by simp⟩⟩

/-- Hypotheses of C94_names_refuted. -/
example (S t : ℝ) (fks : List String) (hk : IsFieldKeys (program [.run 1 1 1 true .RK4] (pairJ "free" "Hard")).log fks) :
    ∀ out, computeFromLog S t (program [.run 1 1 1 true .RK4] (pairJ "free" "Hard")).log fks ≠ .ok out := by
  obtain ⟨h1, h2, h3, h4⟩ := pair_run "free" "Hard" (by decide)
  refine C94_names_refuted _ h1 h2 h3 [.run 1 1 1 true .RK4] (by simp [Call.energiesOnly]) (by simp [Call.noTorque]) h4 rfl (a := "free") (b := "Hard")
    (by simp [pairJ]) (.inr (by simp)) ?_ S t fks hk
  simp [columns, pairJ, layerColumns, resistanceNames]

end Energy
