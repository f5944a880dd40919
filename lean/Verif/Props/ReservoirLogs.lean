import Verif.Props.Reservoirs
import Verif.Props.StackCurrents

/-! # C69: logs and setters of reservoirs -/

set_option linter.unusedSectionVars false

namespace Reservoir
open Spec
variable {T : Type} [Scalar T]

/-! ### Column names -/

/-- helper -/
theorem digits_plain (n : Nat) : '_' ∉ (toString n).toList := by
  intro h
  rw [Nat.toString_eq_repr, Nat.toList_repr] at h
  have := Nat.isDigit_of_mem_toDigits (b := 10) (by norm_num) (by norm_num) h
  exact absurd this (by decide)

/-- helper -/
theorem toString_inj {a b : Nat} (h : toString a = toString b) : a = b := by
  have h1 := congrArg String.toList h
  simp only [Nat.toString_eq_repr, Nat.toList_repr] at h1
  rw [← Nat.ofDigitChars_ten_toDigits (n := a), h1, Nat.ofDigitChars_ten_toDigits]

/-- helper -/
theorem suf_digits (n : Nat) : Keys.Suf ("_" ++ toString n) := ⟨(toString n).toList, by simp [String.toList_append], digits_plain n⟩

/-- helper -/
theorem cellColumn_inj {c i k : Nat} {s s' : String} (hs : Keys.Suf s) (hs' : Keys.Suf s') (h : cellColumn c i s = cellColumn c k s') :
    i = k ∧ s = s' := by
  unfold cellColumn at h
  obtain ⟨h1, h2⟩ := Keys.split hs hs' h
  rw [String.append_assoc, String.append_assoc (s₁ := "m_" ++ toString (k / c))] at h1
  obtain ⟨h3, h4⟩ := Keys.split (suf_digits _) (suf_digits _) h1
  exact ⟨cell_inj (toString_inj (by simpa using h3)) (toString_inj (by simpa using h4)), h2⟩

/-- helper -/
theorem suf_axis {s : String} (h : s ∈ ["_x", "_y", "_z"]) : Keys.Suf s := by
  simp only [List.mem_cons, List.not_mem_nil, or_false] at h
  rcases h with rfl | rfl | rfl
  exacts [⟨['x'], by decide, by decide⟩, ⟨['y'], by decide, by decide⟩, ⟨['z'], by decide, by decide⟩]

/-- helper -/
theorem time_ne (c i : Nat) (s : String) : cellColumn c i s ≠ "time" := by
  intro h
  have h1 := congrArg (fun s => s.toList.head?) h
  simp [cellColumn, String.toList_append] at h1

/-- helper -/
theorem mem_columns (c n : Nat) (key : String) : key ∈ reservoirColumns c n ↔
    key = "time" ∨ ∃ i < n, ∃ s ∈ ["_x", "_y", "_z"], key = cellColumn c i s := by
  simp [reservoirColumns]

/-- helper -/
theorem columns_nodup (c n : Nat) : (reservoirColumns c n).Nodup := by
  unfold reservoirColumns
  rw [List.nodup_cons]
  constructor
  · intro h
    obtain ⟨i, -, h⟩ := List.mem_flatMap.1 h
    simp only [List.mem_cons, List.not_mem_nil, or_false] at h
    rcases h with h | h | h <;> exact time_ne _ _ _ h.symm
  · rw [List.nodup_flatMap]
    refine ⟨fun i _ => ?_, ?_⟩
    · have hne : ∀ s s' : String, s ∈ ["_x", "_y", "_z"] → s' ∈ ["_x", "_y", "_z"] → s ≠ s' → cellColumn c i s ≠ cellColumn c i s' :=
        fun s s' h h' hn he => hn (cellColumn_inj (suf_axis h) (suf_axis h') he).2
      simp only [List.nodup_cons, List.mem_cons, List.not_mem_nil, or_false, not_or, not_false_eq_true, List.nodup_nil, and_true]
      exact ⟨⟨hne _ _ (by simp) (by simp) (by decide), hne _ _ (by simp) (by simp) (by decide)⟩, hne _ _ (by simp) (by simp) (by decide)⟩
    · refine List.Pairwise.imp (fun {a b} hab => ?_) List.nodup_range
      intro x ha hb
      simp only [List.mem_cons, List.not_mem_nil, or_false] at ha hb
      obtain ⟨s, hs, rfl⟩ : ∃ s ∈ ["_x", "_y", "_z"], x = cellColumn c a s := by rcases ha with h | h | h <;> exact ⟨_, by simp, h⟩
      obtain ⟨s', hs', h⟩ : ∃ s' ∈ ["_x", "_y", "_z"], cellColumn c a s = cellColumn c b s' := by
        rcases hb with h | h | h <;> exact ⟨_, by simp, h⟩
      exact hab (cellColumn_inj (suf_axis hs) (suf_axis hs') h).1

/-! ### The elements are always there -/

/-- helper -/
def Full (r : Reservoir T) : Prop := 0 < r.noElements ∧ ∀ i < r.noElements, ∃ l, r.layer i = some l

/-- helper -/
theorem Full.frame {r r' : Reservoir T} (h : Full r) (hf : Frame r r') : Full r' := by
  have hn : r'.noElements = r.noElements := by unfold noElements; rw [hf.rows, hf.cols]
  refine ⟨hn ▸ h.1, fun i hi => ?_⟩
  obtain ⟨l, hl⟩ := h.2 i (hn ▸ hi)
  obtain ⟨l', h1, -⟩ := hf.layers i l hl
  exact ⟨l', h1⟩

/-- helper -/
theorem Full.elements {r : Reservoir T} (h : Full r) : ∃ L : Nat → Layer T, ∀ i < r.noElements, r.layer i = some (L i) := by
  obtain ⟨l0, -⟩ := h.2 0 h.1
  have hex : ∀ i, ∃ l, i < r.noElements → r.layer i = some l := fun i => by
    by_cases hi : i < r.noElements
    · obtain ⟨l, hl⟩ := h.2 i hi; exact ⟨l, fun _ => hl⟩
    · exact ⟨l0, fun hi' => absurd hi' hi⟩
  choose L hL using hex
  exact ⟨L, hL⟩

/-- helper -/
theorem full_mk {pos : List (List (CVec T))} {layers : List (List (Layer T))} {r : Reservoir T} (h : mk' pos layers = .ok r) :
    Full r ∧ r.log = [] ∧ pos.head?.map List.length = some r.cols ∧ r.rows = pos.length := by
  unfold mk' at h
  cases pos with
  | nil => cases h
  | cons row pos =>
    dsimp only at h
    split at h
    · cases h
    · rename_i ls hls
      split at h
      · cases h
      · cases h
        rename_i d hd
        refine ⟨⟨?_, fun i hi => ?_⟩, rfl, rfl, rfl⟩
        · unfold dipoleMatrix at hd
          split at hd
          · cases hd
          · unfold noElements; dsimp only; omega
        obtain ⟨l, hl, -⟩ := Junction.mapM_get hls (List.getElem?_range (show i < _ from hi))
        exact ⟨l, hl⟩

/-- helper -/
theorem program_frame (cs : List (ReservoirCall T)) (r : Reservoir T) : Frame r (cs.foldl (fun r c => (c.exec r).st) r) := by
  induction cs generalizing r with
  | nil => exact .refl r
  | cons c cs ih => exact (frame_call r c).trans (ih _)

/-- helper -/
theorem reachable_full {pos : List (List (CVec T))} {r : Reservoir T} (h : ReservoirReachable pos r) : Full r := by
  obtain ⟨layers, r0, cs, h0, rfl⟩ := h
  exact (full_mk h0).1.frame (program_frame cs r0)

/-! ### One row -/

/-- helper: the entries of one row -/
def rowEntries (r : Reservoir T) (L : Nat → Layer T) (t : T) : List (String × T) :=
  ("time", t) :: (List.range r.noElements).flatMap fun i =>
    [(cellColumn r.cols i "_x", (L i).mag.x), (cellColumn r.cols i "_y", (L i).mag.y), (cellColumn r.cols i "_z", (L i).mag.z)]

/-- helper -/
theorem rowEntries_keys (r : Reservoir T) (L : Nat → Layer T) (t : T) :
    (rowEntries r L t).map Prod.fst = reservoirColumns r.cols r.noElements := by
  unfold rowEntries reservoirColumns
  rw [List.map_cons, List.map_flatMap]
  rfl

/-- helper -/
theorem mapM_eq_map {α β : Type} {f : α → Option β} {g : α → β} {as : List α} (h : ∀ a ∈ as, f a = some (g a)) :
    as.mapM f = some (as.map g) := by
  induction as with
  | nil => rfl
  | cons a as ih =>
    rw [List.mapM_cons, h a (by simp), ih fun b hb => h b (by simp [hb])]
    rfl

/-- helper -/
theorem logData_eq {r : Reservoir T} {L : Nat → Layer T} (h : ∀ i < r.noElements, r.layer i = some (L i)) (t : T) :
    r.logData t = .ok () { r with log := r.log.pushAll (rowEntries r L t) } := by
  unfold logData
  rw [mapM_eq_map (g := fun i => [(cellColumn r.cols i "_x", (L i).mag.x), (cellColumn r.cols i "_y", (L i).mag.y),
    (cellColumn r.cols i "_z", (L i).mag.z)])]
  · rfl
  · intro i hi
    unfold elementEntries
    rw [h i (List.mem_range.1 hi)]
    rfl

/-- helper -/
theorem row_vals (r : Reservoir T) (L : Nat → Layer T) (t : T) :
    Log.vals (rowEntries r L t) "time" = [t] ∧ ∀ i < r.noElements,
      Log.vals (rowEntries r L t) (cellColumn r.cols i "_x") = [(L i).mag.x] ∧
      Log.vals (rowEntries r L t) (cellColumn r.cols i "_y") = [(L i).mag.y] ∧
      Log.vals (rowEntries r L t) (cellColumn r.cols i "_z") = [(L i).mag.z] := by
  have hn : ((rowEntries r L t).map Prod.fst).Nodup := by rw [rowEntries_keys]; exact columns_nodup _ _
  refine ⟨Log.vals_one hn (by simp [rowEntries]), fun i hi => ⟨Log.vals_one hn ?_, Log.vals_one hn ?_, Log.vals_one hn ?_⟩⟩ <;>
  · refine List.mem_cons_of_mem _ (List.mem_flatMap.2 ⟨i, List.mem_range.2 hi, by simp⟩)

/-! ### Logs and the solver -/

/-- helper -/
theorem element_log (r : Reservoir T) (t dt : T) (i : Nat) : (r.solveElement t dt i).st.log = r.log := by
  unfold solveElement
  split
  · split
    · rfl
    · rfl
  · rfl

/-- helper -/
theorem all_log (t dt : T) (is : List Nat) (r : Reservoir T) : (solveAll t dt is r).st.log = r.log := by
  induction is generalizing r with
  | nil => rfl
  | cons i is ih =>
    unfold solveAll
    have h1 := element_log r t dt i
    rcases hs : r.solveElement t dt i with ⟨_ | u, s⟩
    · rw [hs] at h1; exact h1
    · rw [hs] at h1; exact (ih s).trans h1

/-- helper -/
theorem solver_log (r : Reservoir T) (t dt : T) : (r.runSolver t dt).st.log = r.log := by
  unfold runSolver
  cases hc : r.collectFrozen with
  | error e => rfl
  | ok r' =>
    have : r'.log = r.log := by
      unfold collectFrozen at hc
      split at hc
      · cases hc; rfl
      · cases hc
    exact (all_log t dt _ r').trans this

/-- helper: what all histories keep -/
structure LogOk (r : Reservoir T) : Prop where
  full : Full r
  tidy : r.log.Tidy
  cols : ∀ key, (r.log.col key).length = if key ∈ reservoirColumns r.cols r.noElements then (r.log.col "time").length else 0

/-- helper -/
theorem LogOk.same {r r' : Reservoir T} (h : LogOk r) (hf : Frame r r') (hl : r'.log = r.log) : LogOk r' := by
  refine ⟨h.full.frame hf, by rw [hl]; exact h.tidy, fun key => ?_⟩
  unfold noElements
  rw [hl, hf.rows, hf.cols]; exact h.cols key

/-- helper -/
theorem LogOk.row {r : Reservoir T} (h : LogOk r) (t : T) : LogOk (r.logData t).st := by
  obtain ⟨L, hL⟩ := h.full.elements
  have hf := frame_log r t
  rw [logData_eq hL] at hf ⊢
  have hc : ∀ key, ((r.log.pushAll (rowEntries r L t)).col key).length =
      if key ∈ reservoirColumns r.cols r.noElements then (r.log.col "time").length + 1 else 0 := by
    intro key
    rw [Log.col_pushAll, List.length_append, h.cols, Log.vals_length (by rw [rowEntries_keys]; exact columns_nodup _ _), rowEntries_keys]
    split <;> simp
  refine ⟨h.full.frame hf, Log.tidy_pushAll h.tidy _, fun key => ?_⟩
  change ((r.log.pushAll (rowEntries r L t)).col key).length = if key ∈ reservoirColumns r.cols r.noElements then _ else 0
  rw [hc key]
  change _ = if _ then ((r.log.pushAll (rowEntries r L t)).col "time").length else 0
  rw [hc "time", if_pos (show "time" ∈ reservoirColumns r.cols r.noElements from List.mem_cons_self ..)]

/-- helper -/
theorem LogOk.loop {dt : T} {n i : Nat} {r : Reservoir T} (h : LogOk r) : LogOk (Reservoir.loop dt i n r).st := by
  induction n generalizing i r with
  | zero => exact h
  | succ n ih =>
    unfold Reservoir.loop
    dsimp only
    have h1 := h.same (frame_solver r (Scalar.lit (i : ℚ) * dt) dt) (solver_log ..)
    rcases hs : r.runSolver (Scalar.lit (i : ℚ) * dt) dt with ⟨_ | u, s⟩
    · rw [hs] at h1; exact h1
    · rw [hs] at h1
      have h2 := h1.row (Scalar.lit (i : ℚ) * dt)
      dsimp only at h2
      rcases hs' : s.logData (Scalar.lit (i : ℚ) * dt) with ⟨_ | u, s'⟩
      · rw [hs'] at h2
        simp only [Out.bind, hs']
        exact h2
      · rw [hs'] at h2
        simp only [Out.bind, hs']
        exact ih h2

/-- helper -/
theorem onLayer_log (r : Reservoir T) (i : Nat) (f : Layer T → Layer T) : (r.onLayer i f).st.log = r.log := by
  unfold onLayer
  split <;> rfl

/-- helper -/
theorem LogOk.call {r : Reservoir T} (h : LogOk r) (c : ReservoirCall T) : LogOk (c.exec r).st := by
  cases c with
  | allExternal d => exact h.same (frame_call r (.allExternal d)) rfl
  | external i d => exact h.same (frame_call r (.external i d)) (onLayer_log ..)
  | anisotropy i d => exact h.same (frame_call r (.anisotropy i d)) (onLayer_log ..)
  | clearLogs =>
    refine ⟨h.full.frame (frame_call r .clearLogs), ⟨List.nodup_nil, by intro kv hkv; cases hkv⟩, fun key => ?_⟩
    simp [ReservoirCall.exec, Out.ok, clearLogs, Log.col]
  | run total dt =>
    show LogOk (r.runSimulation total dt).st
    unfold runSimulation
    split
    · exact h.loop
    · exact h

/-- helper -/
theorem reachable_logOk {pos : List (List (CVec T))} {r : Reservoir T} (h : ReservoirReachable pos r) : LogOk r := by
  obtain ⟨layers, r0, cs, h0, rfl⟩ := h
  obtain ⟨h1, h2, -⟩ := full_mk h0
  have : LogOk r0 := ⟨h1, by rw [h2]; exact ⟨List.nodup_nil, by intro kv hkv; cases hkv⟩, fun key => by simp [h2, Log.col]⟩
  clear h0 h1 h2
  induction cs generalizing r0 with
  | nil => exact this
  | cons c cs ih => exact ih _ (this.call c)

/-! ### C69 -/

/-- C69: after any client program, failing calls included, the log has exactly the columns `time` and three per element, with
distinct names and the same number of entries in each. -/
theorem C69_aligned {pos : List (List (CVec T))} {r : Reservoir T} (h : ReservoirReachable pos r) :
    r.log.keys.Nodup ∧ (∀ key ∈ r.log.keys, (r.log.col key).length = (r.log.col "time").length) ∧
    ∀ key, key ∈ r.log.keys ↔ (r.log.col "time").length ≠ 0 ∧
      (key = "time" ∨ ∃ i < r.rows * r.cols, ∃ s ∈ ["_x", "_y", "_z"], key = cellColumn r.cols i s) := by
  have hl := reachable_logOk h
  have hk : ∀ key, key ∈ r.log.keys ↔ key ∈ reservoirColumns r.cols r.noElements ∧ (r.log.col "time").length ≠ 0 := by
    intro key
    rw [← Log.col_ne_nil hl.tidy, ← List.length_pos_iff_ne_nil, hl.cols]
    split
    · rename_i hc; simp only [hc, true_and]; omega
    · rename_i hc; simp only [hc, false_and, lt_self_iff_false]
  refine ⟨hl.tidy.1, fun key hkey => ?_, fun key => ?_⟩
  · rw [hl.cols, if_pos ((hk key).1 hkey).1]
  · rw [hk, mem_columns, and_comm]; rfl

/-- C69: different elements and axes have different columns. -/
theorem C69_names (c i k : Nat) (s s' : String) (hs : s ∈ ["_x", "_y", "_z"]) (hs' : s' ∈ ["_x", "_y", "_z"])
    (h : cellColumn c i s = cellColumn c k s') : i = k ∧ s = s' := cellColumn_inj (suf_axis hs) (suf_axis hs') h

/-- helper -/
theorem loop_trace {dt : T} {n i : Nat} {r r' : Reservoir T} (h : loop dt i n r = .ok () r') :
    ∃ σ mid : Nat → Reservoir T, σ i = r ∧ σ (i + n) = r' ∧ ∀ k, i ≤ k → k < i + n →
      (σ k).runSolver (Scalar.lit (k : ℚ) * dt) dt = .ok () (mid k) ∧
      (mid k).logData (Scalar.lit (k : ℚ) * dt) = .ok () (σ (k + 1)) := by
  induction n generalizing i r with
  | zero =>
    simp only [loop, Out.ok, Out.mk.injEq, true_and] at h
    exact ⟨fun _ => r, fun _ => r, rfl, h, fun k h1 h2 => by omega⟩
  | succ n ih =>
    unfold loop at h
    obtain ⟨u, m, h1, h⟩ := Out.bind_eq_ok h
    obtain ⟨u', s, h2, h⟩ := Out.bind_eq_ok h
    obtain ⟨σ, mid, a1, a2, a4⟩ := ih h
    refine ⟨fun k => if k = i then r else σ k, fun k => if k = i then m else mid k, by simp, ?_, ?_⟩
    · simp only [show i + (n + 1) ≠ i by omega, if_false]
      rw [show i + (n + 1) = i + 1 + n by omega, a2]
    · intro k k1 k2
      dsimp only
      by_cases hk : k = i
      · subst hk
        rw [if_pos rfl, if_pos rfl, if_neg (by omega), a1]
        exact ⟨h1, h2⟩
      · rw [if_neg hk, if_neg hk, if_neg (by omega)]
        exact a4 k (by omega) (by omega)

/-- C69: a successful run takes the truncated quotient of duration and step as number of steps, at the times `k·dt`. Every step
is logged: its time, and the magnetisation of every element after the step. -/
theorem C69_run {pos : List (List (CVec T))} {r r' : Reservoir T} (h : ReservoirReachable pos r) {total dt : T}
    (hrun : r.runSimulation total dt = .ok () r') :
    ∃ (z : Int) (N : Nat) (σ mid : Nat → Reservoir T) (L : Nat → Nat → Layer T), Scalar.toInt (total / dt) = some z ∧ N = z.toNat ∧
      σ 0 = r ∧ σ N = r' ∧
      (∀ k < N, (σ k).runSolver (Scalar.lit (k : ℚ) * dt) dt = .ok () (mid k) ∧ Elements (mid k) (r.rows * r.cols) (L k) ∧
        Elements (σ (k + 1)) (r.rows * r.cols) (L k)) ∧
      r'.log.col "time" = r.log.col "time" ++ (List.range N).map (fun k : Nat => Scalar.lit (k : ℚ) * dt) ∧
      ∀ i < r.rows * r.cols,
        r'.log.col (cellColumn r.cols i "_x") = r.log.col (cellColumn r.cols i "_x") ++ (List.range N).map (fun k => (L k i).mag.x) ∧
        r'.log.col (cellColumn r.cols i "_y") = r.log.col (cellColumn r.cols i "_y") ++ (List.range N).map (fun k => (L k i).mag.y) ∧
        r'.log.col (cellColumn r.cols i "_z") = r.log.col (cellColumn r.cols i "_z") ++ (List.range N).map (fun k => (L k i).mag.z) := by
  unfold runSimulation at hrun
  split at hrun
  · rename_i z hz
    obtain ⟨σ, mid, a1, a2, a3⟩ := loop_trace hrun
    rw [Nat.zero_add] at a2
    replace a3 : ∀ k < z.toNat, _ := fun k hk => a3 k (Nat.zero_le _) (by omega)
    have hσ : ∀ n ≤ z.toNat, Frame r (σ n) := by
      intro n
      induction n with
      | zero => intro _; rw [a1]; exact .refl r
      | succ n ih =>
        intro hn
        obtain ⟨b1, b2⟩ := a3 n (by omega)
        have f1 := frame_solver (σ n) (Scalar.lit (n : ℚ) * dt) dt
        have f2 := frame_log (mid n) (Scalar.lit (n : ℚ) * dt)
        rw [b1] at f1; rw [b2] at f2
        exact ((ih (by omega)).trans f1).trans f2
    have hmid : ∀ n < z.toNat, Frame r (mid n) := fun n hn => by
      have f1 := frame_solver (σ n) (Scalar.lit (n : ℚ) * dt) dt
      rw [(a3 n hn).1] at f1
      exact (hσ n hn.le).trans f1
    have hno : ∀ {s : Reservoir T}, Frame r s → s.noElements = r.rows * r.cols := fun hf => by
      unfold noElements; rw [hf.rows, hf.cols]
    have hex : ∀ k, ∃ L : Nat → Layer T, k < z.toNat → ∀ i < r.rows * r.cols, (mid k).layer i = some (L i) := by
      intro k
      by_cases hk : k < z.toNat
      · obtain ⟨L, hL⟩ := ((reachable_full h).frame (hmid k hk)).elements
        exact ⟨L, fun _ i hi => hL i (by rw [hno (hmid k hk)]; exact hi)⟩
      · obtain ⟨L, -⟩ := (reachable_full h).elements
        exact ⟨L, fun h => absurd h hk⟩
    choose L hL using hex
    have hlog : ∀ k < z.toNat, σ (k + 1) = { mid k with log := (mid k).log.pushAll (rowEntries (mid k) (L k) (Scalar.lit (k : ℚ) * dt)) } := by
      intro k hk
      have := (a3 k hk).2
      rw [logData_eq (L := L k) (fun i hi => hL k hk i (by rw [← hno (hmid k hk)]; exact hi))] at this
      simp only [Out.ok, Out.mk.injEq, true_and] at this
      exact this.symm
    have hcol : ∀ (key : String) (f : Nat → T), (∀ k < z.toNat, Log.vals (rowEntries (mid k) (L k) (Scalar.lit (k : ℚ) * dt)) key = [f k]) →
        ∀ n ≤ z.toNat, (σ n).log.col key = r.log.col key ++ (List.range n).map f := by
      intro key f hf n
      induction n with
      | zero => intro _; rw [a1]; simp
      | succ n ih =>
        intro hn
        have hl := solver_log (σ n) (Scalar.lit (n : ℚ) * dt) dt
        rw [(a3 n (by omega)).1] at hl
        rw [hlog n (by omega)]
        change ((mid n).log.pushAll _).col key = _
        rw [Log.col_pushAll, hf n (by omega), show (mid n).log = (σ n).log from hl, ih (by omega), List.range_succ, List.map_append,
          List.append_assoc]
        rfl
    refine ⟨z, z.toNat, σ, mid, L, hz, rfl, a1, a2, fun k hk => ⟨(a3 k hk).1, ?_, ?_⟩, ?_, ?_⟩
    · exact elements_layer.2 ⟨hno (hmid k hk), fun i hi => hL k hk i hi⟩
    · refine elements_layer.2 ⟨hno (hσ (k + 1) (by omega)), fun i hi => ?_⟩
      rw [hlog k hk]; exact hL k hk i hi
    · rw [← a2]
      exact hcol "time" _ (fun k hk => (row_vals ..).1) _ le_rfl
    · intro i hi
      have hv : ∀ k < z.toNat, _ := fun k hk => (row_vals (mid k) (L k) (Scalar.lit (k : ℚ) * dt)).2 i (by rw [hno (hmid k hk)]; exact hi)
      have hc : ∀ k < z.toNat, (mid k).cols = r.cols := fun k hk => (hmid k hk).cols
      rw [← a2]
      refine ⟨hcol _ _ (fun k hk => ?_) _ le_rfl, hcol _ _ (fun k hk => ?_) _ le_rfl, hcol _ _ (fun k hk => ?_) _ le_rfl⟩
      · have := (hv k hk).1; rwa [hc k hk] at this
      · have := (hv k hk).2.1; rwa [hc k hk] at this
      · have := (hv k hk).2.2; rwa [hc k hk] at this
  · simp [Out.ok, Out.fail] at hrun

/-- C69: the setter for all elements replaces the external field of every element and nothing else. -/
theorem C69_all {r : Reservoir T} {n : Nat} {L : Nat → Layer T} (h : Elements r n L) (d : AxialDriver T) :
    Elements (r.setAllExternalField d) n (fun i => { L i with externalFieldDriver := d }) ∧
    { r.setAllExternalField d with layers := r.layers } = r := by
  refine ⟨⟨h.1, fun i hi => ?_⟩, rfl⟩
  have := h.2 i hi
  unfold atCell at this ⊢
  unfold setAllExternalField
  simp only [List.getElem?_map]
  cases hr : r.layers[i / r.cols]? with
  | none => rw [hr] at this; cases this
  | some row =>
    rw [hr] at this
    simp only [Option.bind_some] at this
    simp [this, Layer.setExternalFieldDriver]

/-- C69: the setters for one element replace the driver of this element; the others stay as they are. -/
theorem C69_one {r : Reservoir T} {n : Nat} {L : Nat → Layer T} (h : Elements r n L) {i : Nat} (hi : i < n) :
    (∀ d, ∃ r', r.setLayerExternalField i d = .ok () r' ∧ { r' with layers := r.layers } = r ∧
      Elements r' n (Function.update L i { L i with externalFieldDriver := d })) ∧
    (∀ d, ∃ r', r.setLayerAnisotropy i d = .ok () r' ∧ { r' with layers := r.layers } = r ∧
      Elements r' n (Function.update L i { L i with anisotropyDriver := d })) := by
  have key : ∀ f : Layer T → Layer T, ∃ r', r.onLayer i f = .ok () r' ∧ { r' with layers := r.layers } = r ∧
      Elements r' n (Function.update L i (f (L i))) := by
    intro f
    obtain ⟨h1, h2⟩ := elements_layer.1 h
    refine ⟨r.setLayer i (f (L i)), by unfold onLayer; rw [h2 i hi], rfl, elements_layer.2 ⟨h1, fun k hk => ?_⟩⟩
    rw [layer_setLayer (h2 i hi)]
    by_cases hki : k = i
    · subst hki; simp
    · rw [if_neg hki, Function.update_of_ne hki, h2 k hk]
  exact ⟨fun d => key (·.setExternalFieldDriver d), fun d => key (·.setAnisotropyDriver d)⟩

/-- C69: the magnetisation asked for is that of the element; clearing empties the log and changes nothing else. -/
theorem C69_get_clear {r : Reservoir T} {n : Nat} {L : Nat → Layer T} (h : Elements r n L) :
    (∀ i < n, r.getMagnetisation i = .ok (L i).mag) ∧ r.clearLogs.log = [] ∧ { r.clearLogs with log := r.log } = r := by
  refine ⟨fun i hi => ?_, rfl, rfl⟩
  unfold getMagnetisation
  rw [(elements_layer.1 h).2 i hi]

/-- C69: saving never reads out of range; the table has a row per logged step and its cells are the logged values. -/
theorem C69_save {pos : List (List (CVec T))} {r : Reservoir T} (h : ReservoirReachable pos r) (name : String) :
    (name = "" → r.saveLogs name = none) ∧
    (name ≠ "" → ∃ rows, r.saveLogs name = some (.ok (r.log.keys, rows)) ∧ rows.length = (r.log.col "time").length ∧
      ∀ (i q : Nat) (key : String), i < (r.log.col "time").length → r.log.keys[q]? = some key →
        ∃ row, rows[i]? = some row ∧ row.length = r.log.keys.length ∧ row[q]? = (r.log.col key)[i]?) := by
  obtain ⟨hk, hl, -⟩ := C69_aligned h
  refine ⟨fun hn => by unfold saveLogs; rw [if_pos hn], fun hn => ?_⟩
  have hlen : ∀ kv ∈ r.log, kv.2.length = (r.log.col "time").length := fun kv hkv => by
    rw [← Log.col_of_mem hk hkv]; exact hl _ (List.mem_map.2 ⟨kv, hkv, rfl⟩)
  have hrow : ∀ i, i < (r.log.col "time").length → ∃ row, r.log.mapM (fun kv => kv.2[i]?) = some row ∧ row.length = r.log.length ∧
      ∀ (q : Nat) (kv : String × List T), r.log[q]? = some kv → row[q]? = kv.2[i]? := by
    intro i hi
    exact Junction.mapM_some _ _ (fun kv hkv => ⟨_, List.getElem?_eq_getElem (by rw [hlen kv hkv]; exact hi)⟩)
  obtain ⟨rows, h1, h2, h3⟩ := Junction.mapM_some (fun i => r.log.mapM (fun kv => kv.2[i]?)) (List.range (r.log.col "time").length)
    (fun i hi => by obtain ⟨row, hr, -⟩ := hrow i (List.mem_range.1 hi); exact ⟨row, hr⟩)
  refine ⟨rows, ?_, by simpa using h2, ?_⟩
  · unfold saveLogs
    rw [if_neg hn]
    dsimp only
    rw [h1]
  · intro i q key hi hq
    obtain ⟨row, hr, hlr, hcell⟩ := hrow i hi
    refine ⟨row, ?_, by rw [hlr]; simp [Log.keys], ?_⟩
    · rw [h3 i i (by rw [List.getElem?_range hi]), hr]
    · obtain ⟨kv, hkv, rfl⟩ : ∃ kv, r.log[q]? = some kv ∧ kv.1 = key := by
        unfold Log.keys at hq
        rw [List.getElem?_map, Option.map_eq_some_iff] at hq
        exact hq
      rw [hcell q kv hkv, Log.col_of_mem hk (List.mem_of_getElem? hkv)]

/-- the hypotheses are met by a reservoir of two elements and a run of one step -/
example : ∃ r r' : Reservoir ℝ, ReservoirReachable twoPoints r ∧ r.runSimulation 1 1 = .ok () r' := by
  obtain ⟨r, hr, hL⟩ := two_exists
  obtain ⟨L, hL', h, -⟩ := C42_step_actual twoPlaced hr 0 1
  have heq : ∀ i < 2, L i = twoL i := fun i hi => by
    have := ((elements_layer.1 hL').2 i hi).symm.trans ((elements_layer.1 hL).2 i hi)
    exact Option.some.inj this
  obtain ⟨m, hm⟩ := h.2 fun i hi => by
    have hg : (L i).Guard := by
      rw [heq i hi]
      unfold Layer.Guard twoL
      split <;> simp [Layer.setMag, Junction.quietLayer, plainOf, Layer.demo]
    obtain ⟨c, hc⟩ := (L i).rk4D_ok 0 1 .zero .zero _ hg
    exact ⟨_, hc⟩
  have hf : Frame r m := by
    have := frame_solver r 0 1
    rw [hm] at this; exact this
  have hfull := (reachable_full hr).frame hf
  obtain ⟨L1, hL1⟩ := hfull.elements
  refine ⟨r, { m with log := m.log.pushAll (rowEntries m L1 0) }, hr, ?_⟩
  unfold runSimulation
  have h1 : Scalar.toInt ((1 : ℝ) / 1) = some 1 := by simp [Scalar.toInt, Scalar.truncR]; norm_num
  rw [h1]
  simp only [show (1 : Int).toNat = 0 + 1 from rfl, loop]
  rw [show (Scalar.lit ((0 : Nat) : ℚ) : ℝ) * 1 = 0 by simp, hm, Out.bind_ok, logData_eq hL1, Out.bind_ok]

end Reservoir
