import Verif.Model.PyView
import Mathlib.Data.List.Forall2

set_option linter.unusedSectionVars false

/-!
# C104: data files of the application
-/

namespace View

variable {T : Type} [Scalar T]

/-- A line laid out: every word after some white space, white space at the end. -/
def layOut (words : List (List Char × List Char)) (trail : List Char) : List Char := (words.flatMap fun p => p.1 ++ p.2) ++ trail

/-- White space without a line break. -/
def Blank (s : List Char) : Prop := ∀ c ∈ s, isSpace c = true ∧ c ≠ '\n'

/-- A word: not empty, without white space. -/
def Word (w : List Char) : Prop := w ≠ [] ∧ ∀ c ∈ w, isSpace c = false

/-- What a line says: a comment and a blank line say nothing, a row gives a field and its values, separated by white space. -/
inductive Says (float : List Char → Except Err T) : List Char → Option (T × List T) → Prop
  | comment (text : List Char) (h : '\n' ∉ text) : Says float ('#' :: text) none
  | blank (s : List Char) (h : Blank s) : Says float s none
  | row (lead w : List Char) (ws : List (List Char × List Char)) (trail : List Char) (x : T) (xs : List T) (hlead : Blank lead) (hw : Word w)
      (hx : float w = .ok x) (hws : List.Forall₂ (fun p y => p.1 ≠ [] ∧ Blank p.1 ∧ Word p.2 ∧ float p.2 = .ok y) ws xs) (htrail : Blank trail)
      (hc : lead = [] → w.head? ≠ some '#') : Says float (layOut ((lead, w) :: ws) trail) (some (x, xs))

theorem splitLines_ne (l : List Char) : splitLines l ≠ [] := by
  cases l with
  | nil => simp [splitLines]
  | cons c cs =>
    rw [splitLines]
    split
    · simp
    · split <;> simp

theorem splitLines_line (l rest : List Char) (h : '\n' ∉ l) : splitLines (l ++ '\n' :: rest) = l :: splitLines rest := by
  induction l with
  | nil =>
    rw [List.nil_append, splitLines]
    split
    · exact absurd ‹_› (splitLines_ne rest)
    · rename_i e
      rw [if_pos rfl, e]
  | cons c l ih =>
    simp only [List.mem_cons, not_or] at h
    rw [List.cons_append, splitLines, ih h.2]
    simp [Ne.symm h.1]

theorem splitLines_last (l : List Char) (h : '\n' ∉ l) : splitLines l = [l] := by
  induction l with
  | nil => rfl
  | cons c l ih =>
    simp only [List.mem_cons, not_or] at h
    rw [splitLines, ih h.2]
    simp [Ne.symm h.1]

theorem splitLines_file (l : List Char) (ls : List (List Char)) (h : '\n' ∉ l) (hs : ∀ m ∈ ls, '\n' ∉ m) :
    splitLines (l ++ ls.flatMap fun m => '\n' :: m) = l :: ls := by
  induction ls generalizing l with
  | nil => simpa using splitLines_last l h
  | cons m ls ih =>
    rw [List.flatMap_cons, List.cons_append, splitLines_line l _ h, ih m (hs m (by simp)) fun k hk => hs k (by simp [hk])]

theorem fields_blank (s rest : List Char) (h : Blank s) : fields (s ++ rest) = fields rest := by
  induction s with
  | nil => rfl
  | cons c s ih =>
    rw [List.cons_append, fields.eq_def]
    simp only [(h c (by simp)).1, if_true]
    exact ih fun d hd => h d (by simp [hd])

theorem fields_word (w rest : List Char) (hw : Word w) (hr : ∀ c, rest.head? = some c → isSpace c = true) :
    fields (w ++ rest) = w :: fields rest := by
  obtain ⟨hne, hs⟩ := hw
  induction w with
  | nil => exact absurd rfl hne
  | cons c w ih =>
    have hc : isSpace c = false := hs c (by simp)
    cases w with
    | nil =>
      cases rest with
      | nil => simp [fields, hc]
      | cons d rest =>
        have := hr d rfl
        rw [List.cons_append, List.nil_append, fields]
        simp [hc, this]
    | cons d w =>
      have hd : isSpace d = false := hs d (by simp)
      have e := ih (by simp) fun k hk => hs k (by simp [hk])
      rw [List.cons_append, List.cons_append, fields]
      rw [List.cons_append] at e
      simp [hc, hd, e]

theorem fields_blank_only (s : List Char) (h : Blank s) : fields s = [] := by
  have := fields_blank s [] h
  rw [List.append_nil] at this
  rw [this]
  rfl

theorem layOut_head (ws : List (List Char × List Char)) (trail : List Char) (hws : ∀ p ∈ ws, p.1 ≠ [] ∧ Blank p.1) (ht : Blank trail) (c : Char)
    (hc : (layOut ws trail).head? = some c) : isSpace c = true := by
  cases ws with
  | nil =>
    rw [layOut, List.flatMap_nil, List.nil_append] at hc
    exact (ht c (List.mem_of_mem_head? hc)).1
  | cons p ws =>
    obtain ⟨h1, h2⟩ := hws p (by simp)
    obtain ⟨d, s, e⟩ := List.exists_cons_of_ne_nil h1
    rw [layOut, List.flatMap_cons, e] at hc
    obtain rfl : d = c := by simpa using hc
    exact (h2 d (by simp [e])).1

theorem fields_layOut (ws : List (List Char × List Char)) (trail : List Char) (hws : ∀ p ∈ ws, p.1 ≠ [] ∧ Blank p.1 ∧ Word p.2) (ht : Blank trail) :
    fields (layOut ws trail) = ws.map (·.2) := by
  induction ws with
  | nil => exact fields_blank_only trail ht
  | cons p ws ih =>
    obtain ⟨h1, h2, h3⟩ := hws p (by simp)
    have e : layOut (p :: ws) trail = p.1 ++ (p.2 ++ layOut ws trail) := by simp [layOut]
    have hws' : ∀ q ∈ ws, q.1 ≠ [] ∧ Blank q.1 ∧ Word q.2 := fun q hq => hws q (by simp [hq])
    rw [e, fields_blank _ _ h2, fields_word _ _ h3 (layOut_head ws trail (fun q hq => ⟨(hws' q hq).1, (hws' q hq).2.1⟩) ht), ih hws', List.map_cons]

theorem fields_first (lead w : List Char) (ws : List (List Char × List Char)) (trail : List Char) (hl : Blank lead) (hw : Word w)
    (hws : ∀ p ∈ ws, p.1 ≠ [] ∧ Blank p.1 ∧ Word p.2) (ht : Blank trail) : fields (layOut ((lead, w) :: ws) trail) = w :: ws.map (·.2) := by
  have e : layOut ((lead, w) :: ws) trail = lead ++ (w ++ layOut ws trail) := by simp [layOut]
  rw [e, fields_blank _ _ hl, fields_word _ _ hw (layOut_head ws trail (fun q hq => ⟨(hws q hq).1, (hws q hq).2.1⟩) ht), fields_layOut ws trail hws ht]

theorem collect_forall₂ {α β : Type} {f : α → Except Err β} {xs : List α} {ys : List β} (h : List.Forall₂ (fun x y => f x = .ok y) xs ys) :
    Proc.collect f xs = .ok ys := by
  induction h with
  | nil => rfl
  | cons h1 _ ih => simp [Proc.collect, h1, ih]

theorem head_first (lead w : List Char) (ws : List (List Char × List Char)) (trail : List Char) (hl : Blank lead) (hw : Word w)
    (hc : lead = [] → w.head? ≠ some '#') : (layOut ((lead, w) :: ws) trail).head? ≠ some '#' := by
  intro h
  cases lead with
  | nil =>
    obtain ⟨c, w, rfl⟩ := List.exists_cons_of_ne_nil hw.1
    apply hc rfl
    simpa [layOut] using h
  | cons c lead =>
    obtain rfl : c = '#' := by simpa [layOut] using h
    have := (hl '#' (by simp)).1
    revert this
    decide

theorem readLine_says {float : List Char → Except Err T} {l : List Char} {r : Option (T × List T)} (h : Says float l r) : readLine float l = .ok r := by
  cases h with
  | comment text h => simp [readLine]
  | blank s h =>
    rw [readLine, fields_blank_only l h]
    split <;> rfl
  | row lead w ws trail x xs hlead hw hx hws htrail hc =>
    rw [readLine, if_neg (head_first lead w ws trail hlead hw hc), fields_first lead w ws trail hlead hw ?_ htrail]
    · have : Proc.collect float (ws.map (·.2)) = .ok xs := by
        apply collect_forall₂
        rw [List.forall₂_map_left_iff]
        exact hws.imp fun _ _ h => h.2.2.2
      simp [hx, this, bind, Except.bind]
    · intro p hp
      obtain ⟨n, hn, rfl⟩ := List.getElem_of_mem hp
      have := List.Forall₂.get hws hn (by rw [← hws.length_eq]; exact hn)
      exact ⟨this.1, this.2.1, this.2.2.1⟩

theorem newline_space : isSpace '\n' = true := by decide

theorem says_line {float : List Char → Except Err T} {l : List Char} {r : Option (T × List T)} (h : Says float l r) : '\n' ∉ l := by
  have hb : ∀ s, Blank s → '\n' ∉ s := fun s hs hm => (hs _ hm).2 rfl
  have hwd : ∀ w, Word w → '\n' ∉ w := fun w hw hm => by
    have := hw.2 _ hm
    rw [newline_space] at this
    exact absurd this (by decide)
  cases h with
  | comment text h => simp [h]
  | blank s h => exact hb l h
  | row lead w ws trail x xs hlead hw hx hws htrail hc =>
    intro hm
    simp only [layOut, List.flatMap_cons, List.mem_append, List.mem_flatMap] at hm
    rcases hm with ((hm | hm) | ⟨p, hp, hm⟩) | hm
    · exact hb _ hlead hm
    · exact hwd _ hw hm
    · obtain ⟨n, hn, rfl⟩ := List.getElem_of_mem hp
      have := List.Forall₂.get hws hn (by rw [← hws.length_eq]; exact hn)
      rcases hm with hm | hm
      · exact hb _ this.2.1 hm
      · exact hwd _ this.2.2.1 hm
    · exact hb _ htrail hm

/-- The text of a file from its lines. -/
def fileText (first : List Char) (lines : List (List Char)) : List Char := first ++ lines.flatMap fun m => '\n' :: m

/-- **C104.** A file gives the fields and the values of its rows, in order: comments and blank lines are skipped, words may be separated and
surrounded by any white space (so the line ends may be those of Windows), and the first line is not read, whatever it holds. -/
theorem C104_read (float : List Char → Except Err T) (first : List Char) (hfirst : '\n' ∉ first) (lines : List (List Char)) (rs : List (Option (T × List T)))
    (h : List.Forall₂ (Says float) lines rs) :
    readData float (fileText first lines) = .ok ((rs.filterMap id).map (·.1), (rs.filterMap id).map (·.2)) := by
  have hl : ∀ m ∈ lines, '\n' ∉ m := fun m hm => by
    obtain ⟨n, hn, rfl⟩ := List.getElem_of_mem hm
    exact says_line (List.Forall₂.get h hn (by rw [← h.length_eq]; exact hn))
  unfold readData fileText
  rw [splitLines_file first lines hfirst hl, List.drop_one, List.tail_cons, collect_forall₂ (h.imp fun _ _ => readLine_says)]
  rfl

/-- **C104.** The two lists have one entry for each row. -/
theorem C104_lengths (float : List Char → Except Err T) (file : List Char) (hs : List T) (rows : List (List T)) (h : readData float file = .ok (hs, rows)) :
    hs.length = rows.length := by
  unfold readData at h
  cases e : Proc.collect (readLine float) ((splitLines file).drop 1) with
  | error e' => rw [e] at h; simp [bind, Except.bind] at h
  | ok rs =>
    rw [e] at h
    simp only [bind, Except.bind, Except.ok.injEq, Prod.mk.injEq] at h
    rw [← h.1, ← h.2]
    simp

/-- **C104.** The first word of a row that is no number is the error of the whole file. -/
theorem C104_bad (float : List Char → Except Err T) (first : List Char) (hfirst : '\n' ∉ first) (before after : List (List Char))
    (rs : List (Option (T × List T))) (h : List.Forall₂ (Says float) before rs) (hafter : ∀ m ∈ after, '\n' ∉ m) (lead w : List Char)
    (ws : List (List Char × List Char)) (trail : List Char) (hlead : Blank lead) (hw : Word w) (hws : ∀ p ∈ ws, p.1 ≠ [] ∧ Blank p.1 ∧ Word p.2)
    (htrail : Blank trail) (hc : lead = [] → w.head? ≠ some '#') (e : Err) (he : float w = .error e) :
    readData float (fileText first (before ++ layOut ((lead, w) :: ws) trail :: after)) = .error e := by
  have hl : ∀ m ∈ before ++ layOut ((lead, w) :: ws) trail :: after, '\n' ∉ m := fun m hm => by
    rcases List.mem_append.1 hm with hm | hm
    · obtain ⟨n, hn, rfl⟩ := List.getElem_of_mem hm
      exact says_line (List.Forall₂.get h hn (by rw [← h.length_eq]; exact hn))
    · rcases List.mem_cons.1 hm with rfl | hm
      · have hb : ∀ s, Blank s → '\n' ∉ s := fun s hs hm => (hs _ hm).2 rfl
        have hwd : ∀ w, Word w → '\n' ∉ w := fun w hw hm => by
          have := hw.2 _ hm
          rw [newline_space] at this
          exact absurd this (by decide)
        intro hm
        simp only [layOut, List.flatMap_cons, List.mem_append, List.mem_flatMap] at hm
        rcases hm with ((hm | hm) | ⟨p, hp, hm⟩) | hm
        · exact hb _ hlead hm
        · exact hwd _ hw hm
        · rcases hm with hm | hm
          · exact hb _ (hws p hp).2.1 hm
          · exact hwd _ (hws p hp).2.2 hm
        · exact hb _ htrail hm
      · exact hafter m hm
  have hline : readLine float (layOut ((lead, w) :: ws) trail) = .error e := by
    rw [readLine, if_neg (head_first lead w ws trail hlead hw hc), fields_first lead w ws trail hlead hw hws htrail]
    simp [he, bind, Except.bind]
  have hcol : Proc.collect (readLine float) (before ++ layOut ((lead, w) :: ws) trail :: after) = .error e := by
    clear hl
    induction h with
    | nil => simp [Proc.collect, hline]
    | cons h1 _ ih => simp [Proc.collect, readLine_says h1, ih]
  unfold readData fileText
  rw [splitLines_file first _ hfirst hl, List.drop_one, List.tail_cons, hcol]
  rfl

/-- **C104, refuted.** Rows are lost: the first row of a file without a header. -/
theorem C104_header_refuted (float : List Char → Except Err T) (x : T) (hx : float ['1'] = .ok x) :
    ∃ lines : List (List Char), Says float ['1'] (some (x, [])) ∧ readData float (fileText ['1'] lines) = .ok ([], []) :=
  ⟨[], .row [] ['1'] [] [] x [] (by simp [Blank]) ⟨by simp, by decide⟩ hx .nil (by simp [Blank]) (by simp),
    C104_read float ['1'] (by decide) [] [] .nil⟩

/-- The conditions can be met: a comment, a row of two numbers with a Windows line end, an empty last line. -/
example (float : List Char → Except Err T) (x y : T) (hx : float ['1'] = .ok x) (hy : float ['2'] = .ok y) :
    readData float "H f\n# c\n1\t2\r\n".toList = .ok ([x], [[y]]) :=
  C104_read float "H f".toList (by decide) ["# c".toList, "1\t2\r".toList, []] [none, some (x, [y]), none]
    (.cons (.comment _ (by decide)) (.cons (.row [] ['1'] [(['\t'], ['2'])] ['\r'] x [y] (by simp [Blank]) ⟨by simp, by decide⟩ hx
      (.cons ⟨by simp, by unfold Blank; decide, ⟨by simp, by decide⟩, hy⟩ .nil) (by unfold Blank; decide) (by simp)) (.cons (.blank [] (by simp [Blank])) .nil)))

end View
