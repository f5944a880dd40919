import Verif.Props.StackExamples

/-! # C38: logs of stacks -/

set_option linter.unusedSectionVars false

namespace Stack
open Spec Junction Layer
variable {T : Type} [Scalar T]

/-- helper: everything but the layers' state -/
def LogFrame (j j' : Junction T) : Prop :=
  SameParams j j' ∧ j'.layers.map Layer.id = j.layers.map Layer.id ∧ j'.log = j.log ∧ j'.logLength = j.logLength

/-- helper -/
theorem kept_logFrame : Kept (LogFrame (T := T)) where
  refl j := ⟨.refl j, rfl, rfl, rfl⟩
  trans _ _ _ h h' := ⟨h.1.trans h'.1, h'.2.1.trans h.2.1, h'.2.2.1.trans h.2.2.1, h'.2.2.2.trans h.2.2.2⟩
  current j d := ⟨kept_params.current j d, by simp [carry, setCurrentDriver], rfl, rfl⟩
  step j r t dt := by
    have h := runStep_frame j r t dt
    refine ⟨runStep_params j r t dt, same_ids (runStep_same j r t dt), ?_, ?_⟩ <;> (rw [h]; rfl)
  solver j m n := by
    have h := Junction.getSolver_frame j m n
    refine ⟨Sim.getSolver_params j m n, same_ids (getSolver_same j m n), ?_, ?_⟩ <;> (rw [h]; rfl)

/-- one row of the stack log: time, resistance, currents -/
abbrev Row (T : Type) := T × T × List T

/-- helper -/
def rowEntries (r : Row T) : List (String × T) := logEntries r.1 r.2.1 r.2.2

/-- helper: a member after `n` more rows -/
def Grown (n : Nat) (j j' : Junction T) : Prop := SameParams j j' ∧ j'.layers.map Layer.id = j.layers.map Layer.id ∧
  j'.logLength = j.logLength + n ∧ (j.RtagOk → (j'.log.col "time").length = (j.log.col "time").length + n)

/-- helper -/
theorem LogFrame.grown {j j' : Junction T} (h : LogFrame j j') : Grown 0 j j' := ⟨h.1, h.2.1, h.2.2.2, fun _ => by rw [h.2.2.1]; rfl⟩

/-- helper -/
theorem Grown.trans {n m : Nat} {a b c : Junction T} (h : Grown n a b) (h' : Grown m b c) : Grown (n + m) a c :=
  ⟨h.1.trans h'.1, h'.2.1.trans h.2.1, by rw [h'.2.2.1, h.2.2.1]; omega,
    fun ht => by rw [h'.2.2.2 (ht.params h.1 h.2.1), h.2.2.2 ht]; omega⟩

/-- helper -/
theorem forall₂_comp {α : Type} {P Q R : α → α → Prop} (h : ∀ a b c, P a b → Q b c → R a c) {l m n : List α}
    (h1 : List.Forall₂ P l m) (h2 : List.Forall₂ Q m n) : List.Forall₂ R l n := by
  induction h1 generalizing n with
  | nil => cases h2; exact .nil
  | cons hab _ ih =>
    rcases h2 with _ | ⟨hbc, h2⟩
    exact .cons (h _ _ _ hab hbc) (ih h2)

/-- helper -/
theorem log_grown (j : Junction T) (t : T) (hm : j.MrOk) : ∃ j', j.logLayerParams t false = .ok () j' ∧ Grown 1 j j' := by
  refine ⟨_, log_row j t false hm, ?_⟩
  refine ⟨.refl j, rfl, rfl, fun ht => ?_⟩
  change ((j.log.pushAll (rowOf j false (j.layers, t))).col "time").length = _
  rw [Log.col_pushAll, row_time j (by rw [withLayers_self]; exact hm) ht rfl]
  simp

/-- helper -/
theorem logRow_grown (s : Stack T) (hm : ∀ j ∈ s.junctions, j.MrOk) (t : T) (vs : List (T × T)) (hv : vs.length = s.junctions.length) :
    ∃ s', s.logRow t vs = .ok () s' ∧ List.Forall₂ (Grown 1) s.junctions s'.junctions ∧
      ∃ row : Row T, row.2.2.length = s.junctions.length ∧ s'.stackLog = s.stackLog.pushAll (rowEntries row) := by
  unfold logRow
  dsimp only
  rw [show (s.logStackData t (s.calculateStackResistance (vs.map Prod.fst)) (vs.map Prod.snd)).junctions = s.junctions from rfl]
  obtain ⟨bs, as, h, hb, ha, hP⟩ := Out.traverse_exists (fun _ j => j.logLayerParams t false) (fun _ j _ j' => Grown 1 j j') 0 s.junctions
    (fun k j hj => by
      obtain ⟨j', h1, h2⟩ := log_grown j t (hm j (List.mem_of_getElem? hj))
      exact ⟨(), j', h1, h2⟩)
  rw [h]
  refine ⟨_, rfl, ?_, (t, s.calculateStackResistance (vs.map Prod.fst), vs.map Prod.snd), by simp [hv], rfl⟩
  refine List.Forall₂.of_getElem? ha.symm ?_
  intro i a b h1 h2
  have hi : i < bs.length := by rw [hb]; exact (List.getElem?_eq_some_iff.1 h1).1
  exact hP i a _ b h1 (List.getElem?_eq_getElem hi) h2

/-- helper -/
theorem step_vs {s s' : Stack T} {r : Runner} {two : Bool} {t dt : T} {vs : List (T × T)} (h : s.step r two t dt = .ok vs s') :
    vs.length = s.junctions.length := by
  obtain ⟨fr, js, -, h2, rfl⟩ := step_ok h
  exact (junctionLoop_ok h2).1

/-- what a call of `runSimulation` does to the logs: `rows` whole rows on the stack, as many on every member -/
def Logged (s s' : Stack T) : Prop := ∃ rows : List (Row T), (∀ row ∈ rows, row.2.2.length = s.junctions.length) ∧
  s'.stackLog = s.stackLog.pushAll (rows.flatMap rowEntries) ∧ List.Forall₂ (Grown rows.length) s.junctions s'.junctions

/-- helper -/
theorem Logged.trans {a b c : Stack T} (h : Logged a b) (h' : Logged b c) : Logged a c := by
  obtain ⟨r1, a1, a2, a3⟩ := h
  obtain ⟨r2, b1, b2, b3⟩ := h'
  refine ⟨r1 ++ r2, ?_, ?_, ?_⟩
  · intro row hr
    rcases List.mem_append.1 hr with hr | hr
    · exact a1 row hr
    · rw [b1 row hr, a3.length_eq]
  · rw [b2, a2, List.flatMap_append, Log.pushAll_append]
  · rw [List.length_append]; exact forall₂_comp (P := Grown r1.length) (Q := Grown r2.length) (fun _ _ _ h h' => Grown.trans h h') a3 b3

/-- helper -/
theorem Logged.nil {s s' : Stack T} (hl : s'.stackLog = s.stackLog) (hj : List.Forall₂ LogFrame s.junctions s'.junctions) : Logged s s' :=
  ⟨[], by simp, hl, hj.imp fun _ _ => LogFrame.grown⟩

/-- helper -/
theorem mrOk_grown {n : Nat} {js js' : List (Junction T)} (h : List.Forall₂ (Grown n) js js') (hm : ∀ j ∈ js, j.MrOk) : ∀ j ∈ js', j.MrOk :=
  forall_of_forall₂ (P := fun a b => Grown n a b) (fun _ _ hab ha => hab.1.mrOk ha) h hm

/-- helper -/
theorem Logged.mrOk {s s' : Stack T} (h : Logged s s') (hm : ∀ j ∈ s.junctions, j.MrOk) : ∀ j ∈ s'.junctions, j.MrOk := by
  obtain ⟨rows, -, -, h3⟩ := h
  exact mrOk_grown h3 hm

/-- helper -/
theorem loop_logged (r : Runner) (two : Bool) (dt : T) (we n i : Nat) (s : Stack T) (hm : ∀ j ∈ s.junctions, j.MrOk) :
    Logged s (loop r two dt we i n s).st := by
  induction n generalizing i s with
  | zero => exact Logged.nil rfl (forall₂_refl kept_logFrame.refl _)
  | succ n ih =>
    unfold loop
    dsimp only
    obtain ⟨-, f1, f2⟩ := step_kept kept_logFrame s r two (Scalar.lit (i : ℚ) * dt) dt
    rcases hs : s.step r two (Scalar.lit (i : ℚ) * dt) dt with ⟨_ | vs, s1⟩
    · rw [hs] at f1 f2
      exact Logged.nil f1 f2
    · rw [hs] at f1 f2
      have h1 : Logged s s1 := Logged.nil f1 f2
      have hv := step_vs hs
      simp only [Out.bind]
      split
      · exact h1
      · split
        · obtain ⟨s2, h2, h3, row, h4, h5⟩ := logRow_grown s1 (h1.mrOk hm) (Scalar.lit (i : ℚ) * dt) vs (by rw [hv]; exact f2.length_eq)
          rw [h2]
          have h6 : Logged s1 s2 := ⟨[row], by simpa using h4, by simpa using h5, h3⟩
          exact (h1.trans h6).trans (ih (i + 1) s2 ((h1.trans h6).mrOk hm))
        · exact h1.trans (ih (i + 1) s1 (h1.mrOk hm))

/-- helper: whatever the outcome, a run only adds whole rows, as many to the members as to the stack -/
theorem run_logged (s : Stack T) (hm : ∀ j ∈ s.junctions, j.MrOk) (total dt wf : T) : Logged s (s.runSimulation total dt wf).st := by
  have h0 : Logged s s := Logged.nil rfl (forall₂_refl kept_logFrame.refl _)
  unfold runSimulation
  split
  · rename_i we N _ _
    split
    · exact h0
    · have h1 := solvers_kept kept_logFrame N s.junctions
      generalize solvers N s.junctions = x at h1
      rcases x with ⟨_ | rms, js⟩
      · exact Logged.nil rfl h1
      · have h2 : Logged s (s.withJunctions js) := Logged.nil rfl h1
        dsimp only
        split
        · exact h2
        · split
          · exact h2
          · split
            · exact h2
            · exact h2.trans (loop_logged _ _ dt we N 0 _ (h2.mrOk hm))
  · exact h0

/-- helper -/
theorem reachable_mrOk {s : Stack T} (h : StackReachable s) : ∀ j ∈ s.junctions, j.MrOk := by
  intro j hj hs
  rw [(reachable_valid h).classic j hj] at hs; cases hs

/-- helper -/
theorem row_keys (row : Row T) : (rowEntries row).map Prod.fst =
    "Resistance" :: ((List.range row.2.2.length).map (fun i => "I_" ++ toString i) ++ ["time"]) := logEntries_keys _ _ _

/-- helper -/
theorem rows_vals (n : Nat) (rows : List (Row T)) (h : ∀ row ∈ rows, row.2.2.length = n) (key : String) :
    (Log.vals (rows.flatMap rowEntries) key).length =
      if key ∈ "Resistance" :: ((List.range n).map (fun i => "I_" ++ toString i) ++ ["time"]) then rows.length else 0 := by
  induction rows with
  | nil => simp [Log.vals_nil]
  | cons row rows ih =>
    have hr := h row (by simp)
    rw [List.flatMap_cons, Log.vals_append, List.length_append, ih fun r hr => h r (List.mem_cons_of_mem _ hr),
      Log.vals_length (ps := rowEntries row) (logEntries_nodup _ _ _), row_keys, hr]
    split <;> simp [Nat.add_comm]

/-- helper: what all histories keep -/
structure LogOk (s : Stack T) : Prop where
  tidy : s.stackLog.Tidy
  cols : ∀ key, (s.stackLog.col key).length =
    if key ∈ "Resistance" :: ((List.range s.junctions.length).map (fun i => "I_" ++ toString i) ++ ["time"]) then stackRows s else 0

/-- helper -/
theorem LogOk.logged {s s' : Stack T} (h : LogOk s) (hl : Logged s s') : LogOk s' := by
  obtain ⟨rows, h1, h2, h3⟩ := hl
  have hc : ∀ key, (s'.stackLog.col key).length =
      if key ∈ "Resistance" :: ((List.range s.junctions.length).map (fun i => "I_" ++ toString i) ++ ["time"])
      then stackRows s + rows.length else 0 := by
    intro key
    rw [h2, Log.col_pushAll, List.length_append, h.cols, rows_vals _ rows h1]
    split <;> simp
  refine ⟨by rw [h2]; exact Log.tidy_pushAll h.tidy _, fun key => ?_⟩
  rw [← h3.length_eq, hc key]
  unfold stackRows
  rw [hc "time"]
  simp [stackRows]

/-- helper -/
theorem LogOk.of_eq {s s' : Stack T} (h : LogOk s) (hl : s'.stackLog = s.stackLog) (hj : s'.junctions.length = s.junctions.length) :
    LogOk s' := by
  refine ⟨by rw [hl]; exact h.tidy, fun key => ?_⟩
  unfold stackRows
  rw [hl, hj]; exact h.cols key

/-- helper: the calls that leave the stack log alone -/
theorem call_log (s : Stack T) (c : StackCall T) (h1 : c ≠ .clearLogs) (h2 : ∀ a b d, c ≠ .run a b d) :
    (c.exec s).st.stackLog = s.stackLog := by
  cases c with
  | clearLogs => exact absurd rfl h1
  | run a b d => exact absurd rfl (h2 a b d)
  | coupling c => rfl
  | couplings cs => simp only [StackCall.exec, setCouplingStrengths]; split <;> rfl
  | delayed b =>
    simp only [StackCall.exec, setDelayed]
    split
    · rfl
    · split <;> rfl
  | magnetisation i id m => exact (onJunction_junctions (P := fun _ _ => True) s i _ (fun _ => trivial) (fun _ => trivial)).2.1
  | anisotropy i id m => exact (onJunction_junctions (P := fun _ _ => True) s i _ (fun _ => trivial) (fun _ => trivial)).2.1
  | member i c => exact (onJunction_junctions (P := fun _ _ => True) s i _ (fun _ => trivial) (fun _ => trivial)).2.1
  | oersted d => exact (onAll_junctions (P := fun _ _ => True) s _ (fun _ => trivial) (fun _ => trivial)).2.1
  | externalField d => exact (onAll_junctions (P := fun _ _ => True) s _ (fun _ => trivial) (fun _ => trivial)).2.1
  | current d => exact (onAll_junctions (P := fun _ _ => True) { s with currentDriver := d } _ (fun _ => trivial) (fun _ => trivial)).2.1
  | resetCurrent =>
    exact (onAll_junctions (P := fun _ _ => True) { s with currentDriver := .null } _ (fun _ => trivial) (fun _ => trivial)).2.1

/-- helper -/
theorem LogOk.call {s : Stack T} (h : LogOk s) (hm : ∀ j ∈ s.junctions, j.MrOk) (c : StackCall T) : LogOk (c.exec s).st := by
  by_cases h1 : c = .clearLogs
  · subst h1
    exact ⟨⟨List.nodup_nil, by intro kv hkv; cases hkv⟩, fun key => by simp [StackCall.exec, clearLogs, Log.col, stackRows]⟩
  · by_cases h2 : ∃ a b d, c = .run a b d
    · obtain ⟨a, b, d, rfl⟩ := h2
      exact h.logged (run_logged s hm a b d)
    · push Not at h2
      exact h.of_eq (call_log s c h1 h2) (StackCall.params s c).1.length_eq.symm

/-- helper -/
theorem reachable_logOk {s : Stack T} (h : StackReachable s) : LogOk s := by
  obtain ⟨kind, js, a, b, ph, s0, cs, hj, h0, rfl⟩ := h
  have h4 := ((C34_constructor kind js a b ph).2.2.2 s0 h0).2.2.2.2.2.2.2
  have hr : ∀ cs, StackReachable (stackProgram cs s0) := fun cs => ⟨kind, js, a, b, ph, s0, cs, hj, h0, rfl⟩
  have key : ∀ cs, LogOk (stackProgram cs s0) := by
    intro cs
    induction cs using List.reverseRecOn with
    | nil =>
      refine ⟨?_, fun key => ?_⟩
      · change s0.stackLog.Tidy; rw [h4]; exact ⟨List.nodup_nil, by intro kv hkv; cases hkv⟩
      · change (s0.stackLog.col key).length = if _ then (s0.stackLog.col "time").length else 0
        rw [h4]; simp [Log.col]
    | append_singleton cs c ih =>
      have := ih.call (reachable_mrOk (hr cs)) c
      unfold stackProgram at this ⊢
      rw [List.foldl_append]
      exact this
  exact key cs

/-- C38: after any sequence of calls, failing ones included, the columns of the stack log all have the length of the time
column, and they are exactly the resistance, one current per junction, and the time. -/
theorem C38_aligned (s : Stack T) (h : StackReachable s) : StackAligned s ∧
    ∀ key, key ∈ s.stackLog.keys ↔ stackRows s ≠ 0 ∧
      (key = "Resistance" ∨ key = "time" ∨ ∃ q < s.junctions.length, key = "I_" ++ toString q) := by
  have hl := reachable_logOk h
  have hk : ∀ key, key ∈ s.stackLog.keys ↔
      key ∈ "Resistance" :: ((List.range s.junctions.length).map (fun i => "I_" ++ toString i) ++ ["time"]) ∧ stackRows s ≠ 0 := by
    intro key
    rw [← Log.col_ne_nil hl.tidy, ← List.length_pos_iff_ne_nil, hl.cols]
    split
    · rename_i hc; simp only [hc, true_and]; omega
    · rename_i hc; simp only [hc, false_and, lt_self_iff_false]
  refine ⟨⟨hl.tidy.1, fun key hkey => ?_⟩, fun key => ?_⟩
  · rw [hl.cols, if_pos ((hk key).1 hkey).1]; rfl
  · rw [hk]
    simp only [List.mem_cons, List.mem_append, List.mem_map, List.mem_range, List.not_mem_nil, or_false]
    constructor
    · rintro ⟨h1 | ⟨q, hq, rfl⟩ | h1, h2⟩
      · exact ⟨h2, .inl h1⟩
      · exact ⟨h2, .inr (.inr ⟨q, hq, rfl⟩)⟩
      · exact ⟨h2, .inr (.inl h1)⟩
    · rintro ⟨h2, h1 | h1 | ⟨q, hq, rfl⟩⟩
      · exact ⟨.inl h1, h2⟩
      · exact ⟨.inr (.inr h1), h2⟩
      · exact ⟨.inr (.inl ⟨q, hq, rfl⟩), h2⟩

/-- C38: a run, successful or not, gives every member as many new rows as the stack: its row counter and its time column
grow by the same number. Clearing empties all logs. -/
theorem C38_rows (s : Stack T) (h : StackReachable s) :
    (∀ total dt wf, let s' := (s.runSimulation total dt wf).st
      ∃ n, stackRows s' = stackRows s + n ∧ s'.junctions.length = s.junctions.length ∧
        ∀ (q : Nat) (j : Junction T), s.junctions[q]? = some j → ∃ j', s'.junctions[q]? = some j' ∧ j'.logLength = j.logLength + n ∧
          (j.RtagOk → (j'.log.col "time").length = (j.log.col "time").length + n)) ∧
    stackRows s.clearLogs = 0 ∧ s.clearLogs.stackLog = [] ∧ ∀ j ∈ s.clearLogs.junctions, j.logLength = 0 ∧ j.log = [] := by
  refine ⟨fun total dt wf => ?_, rfl, rfl, ?_⟩
  · obtain ⟨rows, h1, h2, h3⟩ := run_logged s (reachable_mrOk h) total dt wf
    refine ⟨rows.length, ?_, h3.length_eq.symm, fun q j hj => ?_⟩
    · unfold stackRows
      rw [h2, Log.col_pushAll, List.length_append, rows_vals _ rows h1, if_pos (by simp)]
    · obtain ⟨j', a1, a2⟩ := forall₂_get h3 hj
      exact ⟨j', a1, a2.2.2.1, a2.2.2.2⟩
  · intro j hj
    simp only [clearLogs, List.mem_map] at hj
    obtain ⟨x, -, rfl⟩ := hj
    exact ⟨rfl, rfl⟩

/-- C38: saving the stack log never reads out of range; the table has a row per logged row and its cells are the logged
values. -/
theorem C38_save (s : Stack T) (h : StackReachable s) (name : String) :
    (name = "" → s.saveLogs name = none) ∧
    (name ≠ "" → ∃ rows, s.saveLogs name = some (.ok (s.stackLog.keys, rows)) ∧ rows.length = stackRows s ∧
      ∀ (i q : Nat) (key : String), i < stackRows s → s.stackLog.keys[q]? = some key →
        ∃ row, rows[i]? = some row ∧ row.length = s.stackLog.keys.length ∧ row[q]? = (s.stackLog.col key)[i]?) := by
  obtain ⟨⟨hk, hl⟩, -⟩ := C38_aligned s h
  refine ⟨fun hn => by unfold saveLogs; rw [if_pos hn], fun hn => ?_⟩
  have hlen : ∀ kv ∈ s.stackLog, kv.2.length = stackRows s := fun kv hkv => by
    rw [← Log.col_of_mem hk hkv]; exact hl _ (List.mem_map.2 ⟨kv, hkv, rfl⟩)
  have hrow : ∀ i, i < stackRows s → ∃ row, s.stackLog.mapM (fun kv => kv.2[i]?) = some row ∧ row.length = s.stackLog.length ∧
      ∀ (q : Nat) (kv : String × List T), s.stackLog[q]? = some kv → row[q]? = kv.2[i]? := by
    intro i hi
    exact mapM_some _ _ (fun kv hkv => ⟨_, List.getElem?_eq_getElem (by rw [hlen kv hkv]; exact hi)⟩)
  obtain ⟨rows, h1, h2, h3⟩ := mapM_some (fun i => s.stackLog.mapM (fun kv => kv.2[i]?)) (List.range (stackRows s)) (fun i hi => by
    obtain ⟨row, hr, -⟩ := hrow i (List.mem_range.1 hi); exact ⟨row, hr⟩)
  refine ⟨rows, ?_, by simpa using h2, ?_⟩
  · unfold saveLogs
    rw [if_neg hn]
    dsimp only
    unfold stackRows at h1
    rw [h1]
  · intro i q key hi hq
    obtain ⟨row, hr, hlr, hcell⟩ := hrow i hi
    refine ⟨row, ?_, by rw [hlr]; simp [Log.keys], ?_⟩
    · rw [h3 i i (by rw [List.getElem?_range hi]), hr]
    · obtain ⟨kv, hkv, rfl⟩ : ∃ kv, s.stackLog[q]? = some kv ∧ kv.1 = key := by
        unfold Log.keys at hq
        rw [List.getElem?_map, Option.map_eq_some_iff] at hq
        exact hq
      rw [hcell q kv hkv, Log.col_of_mem hk (List.mem_of_getElem? hkv)]

/-! ### Members -/

/-- helper -/
theorem logInv_frame {j j' : Junction T} (h : LogInv false j) (hf : LogFrame j j') : LogInv false j' := by
  obtain ⟨hp, hi, hl, hn⟩ := hf
  refine ⟨hp.mrOk h.mr, h.tag.params hp hi, by unfold DistinctIds; rw [hi]; exact h.ids, by simp, by rw [hl]; exact h.tidy, fun key => ?_⟩
  rw [columns_congr hp hi, hl, hn]; exact h.cols key

/-- helper -/
theorem logInv_log {j : Junction T} (h : LogInv false j) (t : T) : LogInv false (j.logLayerParams t false).st := by
  rw [log_row j t false h.mr]
  refine ⟨h.mr, h.tag, h.ids, by simp, Log.tidy_pushAll h.tidy _, fun key => ?_⟩
  change ((j.log.pushAll (rowOf j false (j.layers, t))).col key).length = if key ∈ columns false j then j.logLength + 1 else 0
  have := rows_length h [(j.layers, t)] (by intro p hp; rw [List.mem_singleton.1 hp]; exact forall₂_refl (fun l => Same.refl l) _) key
  simp only [List.flatMap_cons, List.flatMap_nil, List.append_nil, List.length_singleton] at this
  rw [Log.col_pushAll, List.length_append, h.cols, this]
  split <;> simp

/-- helper -/
theorem kept_logInv : Kept (fun j j' : Junction T => LogInv false j → LogInv false j') where
  refl _ h := h
  trans _ _ _ h h' hj := h' (h hj)
  current j d h := logInv_frame h (kept_logFrame.current j d)
  step j r t dt h := logInv_frame h (kept_logFrame.step j r t dt)
  solver j m n h := logInv_frame h (kept_logFrame.solver j m n)

/-- helper -/
theorem members_call {s : Stack T} (h : ∀ j ∈ s.junctions, LogInv false j) (c : StackCall T)
    (hc : ∀ i m, c = .member i m → m.energiesOnly false) : ∀ j ∈ (c.exec s).st.junctions, LogInv false j := by
  have one : ∀ i (c : Call T), c.energiesOnly false → ∀ j ∈ (s.onJunction i c.exec).st.junctions, LogInv false j := fun i c hc =>
    forall_of_forall₂ (fun _ _ hab ha => hab ha) (onJunction_junctions (P := fun j j' => LogInv false j → LogInv false j') s i c.exec
      (fun _ h => h) (fun j hj => hj.call c hc (by simp))).1 h
  have all : ∀ (s : Stack T) (c : Call T), (∀ j ∈ s.junctions, LogInv false j) → c.energiesOnly false →
      ∀ j ∈ (s.onAll c.exec).st.junctions, LogInv false j := fun s c h hc =>
    forall_of_forall₂ (fun _ _ hab ha => hab ha) (onAll_junctions (P := fun j j' => LogInv false j → LogInv false j') s c.exec
      (fun _ h => h) (fun j hj => hj.call c hc (by simp))).1 h
  cases c with
  | magnetisation i id m => exact one i (.magnetisation id m) trivial
  | anisotropy i id d => exact one i (.anisotropy id d) trivial
  | member i c => exact one i c (hc i c rfl)
  | oersted d => exact all s (.oersted "all" d) h trivial
  | externalField d => exact all s (.externalField "all" d) h trivial
  | current d => exact all { s with currentDriver := d } (.current "all" d) h trivial
  | resetCurrent => exact all { s with currentDriver := .null } (.current "all" .null) h trivial
  | coupling c => exact h
  | couplings cs =>
    simp only [StackCall.exec, setCouplingStrengths]
    split <;> exact h
  | delayed b =>
    simp only [StackCall.exec, setDelayed]
    split
    · exact h
    · split <;> exact h
  | clearLogs =>
    intro j hj
    simp only [StackCall.exec, clearLogs, Out.ok_st, List.mem_map] at hj
    obtain ⟨x, hx, rfl⟩ := hj
    exact (h x hx).call .clearLog trivial (by simp)
  | run a b c =>
    exact forall_of_forall₂ (fun _ _ hab ha => hab ha) (run_kept kept_logInv (fun _ t hj => logInv_log hj t) s a b c).2 h

/-- C38: the members' own logs stay aligned too, in the sense of C28: for junctions with distinct layer ids, before and
after they are put into the stack, as long as no run made directly on a member logs energies. -/
theorem C38_members (kind : StackKind) (js : List (Junction T)) (a b : String) (ph : T) (s0 : Stack T) (cs : List (StackCall T))
    (hj : ∀ j ∈ js, ∃ j0 ds, Constructed j0 ∧ DistinctIds j0 ∧ (∀ d ∈ ds, Call.energiesOnly false d) ∧ j = program ds j0)
    (h0 : mk' kind js a b ph = .ok s0) (hc : ∀ i c, StackCall.member i c ∈ cs → c.energiesOnly false) :
    ∀ j ∈ (stackProgram cs s0).junctions, Aligned j := by
  have h1 := ((C34_constructor kind js a b ph).2.2.2 s0 h0).1
  have hstart : ∀ j ∈ s0.junctions, LogInv false j := by
    rw [h1]
    intro j hjm
    obtain ⟨j0, ds, c1, c2, c3, rfl⟩ := hj j hjm
    exact (LogInv.start c1 c2 (by simp)).program ds c3 (by simp)
  clear h0 h1
  have : ∀ j ∈ (stackProgram cs s0).junctions, LogInv false j := by
    induction cs generalizing s0 with
    | nil => exact hstart
    | cons c cs ih =>
      exact ih _ (fun i c h => hc i c (List.mem_cons_of_mem _ h)) (members_call hstart c (fun i m hm => hc i m (by simp [hm])))
  exact fun j hj => (this j hj).aligned.1

/-- C38: the time column of the stack records the sampled times of a successful run, after what was there. -/
theorem C38_time (s s' : Stack ℝ) (total dt wf : ℝ) (h : s.runSimulation total dt wf = .ok () s') :
    ∃ we N, castUnsigned (wf / dt) = some we ∧ castUnsigned (total / dt) = some N ∧
      s'.stackLog.col "time" = s.stackLog.col "time" ++ (sampleSteps N we).map fun n : Nat => (n : ℝ) * dt := by
  obtain ⟨we, N, two, r, σ, mid, vs, h1, h2, h3, h4, h5, h6, h7⟩ := run_trace h
  refine ⟨we, N, h1, h2, ?_⟩
  rw [← h4, trace_col h5 (fun k hk => (h7 k hk).2.2.2.2.2) _]
  congr 1
  exact flatMap_single _ _ _ fun n _ => logEntries_time _ _ _

/-- the hypotheses are met by a stack with a log -/
example : ∃ s : Stack ℝ, StackReachable s ∧ stackRows s = 1 := by
  obtain ⟨s', h⟩ := stackOf_completes .series [pairJ, pairJ] (by simp) (by simp) [0] rfl .null rfl
  obtain ⟨kind, js, a, b, ph, s0, cs, hj, h0, he⟩ := stackOf_reachable .series [pairJ, pairJ] (by simp) (by simp [pairJ_reachable]; rfl)
  refine ⟨s', ⟨kind, js, a, b, ph, s0, cs ++ [.run 1 1 1], hj, h0, ?_⟩, ?_⟩
  · unfold stackProgram at he ⊢
    rw [List.foldl_append, ← he]
    change s' = ((stackOf .series [pairJ, pairJ]).runSimulation 1 1 1).st
    change (stackOf .series [pairJ, pairJ]).runSimulation 1 1 1 = .ok () s' at h
    rw [h]; rfl
  · obtain ⟨we, N, h1, h2, h3⟩ := C38_time _ s' 1 1 1 h
    rw [cast_unit] at h1 h2
    cases h1; cases h2
    unfold stackRows
    rw [h3]
    rfl

end Stack
