import Verif.Props.LlgbRuns
import Verif.Props.LlgbField

/-! # C66, C67: logs and setters of LLGB junctions -/

set_option linter.unusedSectionVars false

namespace LLGBJunction
open Spec LLGBLayer

section
variable {T : Type} [Scalar T]

/-! ## Column names -/

/-- the part of a name after its last underscore, reversed -/
def lastSeg (s : String) : List Char := s.toList.reverse.takeWhile (· ≠ '_')

/-- suffixes of the columns of a layer -/
def sufs : List String := ["_mx", "_my", "_mz", "_alpha_parallel", "_alpha_perpendicular", "_K", "_T", "_me", "_Xpar"]

theorem lastSeg_append (id s : String) (h : (lastSeg s).length ≠ s.toList.length) : lastSeg (id ++ s) = lastSeg s := by
  unfold lastSeg at h ⊢
  rw [String.toList_append, List.reverse_append, List.takeWhile_append, if_neg (by simpa using h)]

theorem suf_inj {a b s s' : String} (hs : s ∈ sufs) (hs' : s' ∈ sufs) (h : a ++ s = b ++ s') : a = b ∧ s = s' := by
  have h1 : ∀ s ∈ sufs, (lastSeg s).length ≠ s.toList.length := by decide
  have h2 : ∀ s ∈ sufs, ∀ s' ∈ sufs, lastSeg s = lastSeg s' → s = s' := by decide
  have h3 : s = s' := h2 s hs s' hs' (by rw [← lastSeg_append a s (h1 s hs), h, lastSeg_append b s' (h1 s' hs')])
  subst h3
  refine ⟨String.toList_injective ?_, rfl⟩
  have := congrArg String.toList h
  rw [String.toList_append, String.toList_append] at this
  exact List.append_cancel_right this

theorem suf_time {a s : String} (hs : s ∈ sufs) : a ++ s ≠ "time" := by
  have h1 : ∀ s ∈ sufs, '_' ∈ s.toList := by decide
  intro h
  have : '_' ∈ (a ++ s).toList := by rw [String.toList_append]; exact List.mem_append_right _ (h1 s hs)
  rw [h] at this
  exact absurd this (by decide)

theorem columns_eq (j : LLGBJunction T) : llgbColumns j = (j.layers.map LLGBLayer.id).flatMap (fun id => sufs.map (id ++ ·)) ++ ["time"] := rfl

theorem columns_nodup (j : LLGBJunction T) (h : (j.layers.map LLGBLayer.id).Nodup) : (llgbColumns j).Nodup := by
  rw [columns_eq]
  refine List.nodup_append.2 ⟨?_, by simp, ?_⟩
  · rw [List.nodup_flatMap]
    refine ⟨fun id _ => List.Nodup.map_on (fun s hs s' hs' e => (suf_inj hs hs' e).2) (by decide), ?_⟩
    refine h.imp fun hne => ?_
    intro x hx hy
    obtain ⟨s, hs, rfl⟩ := List.mem_map.1 hx
    obtain ⟨s', hs', e⟩ := List.mem_map.1 hy
    exact hne (suf_inj hs' hs e).1.symm
  · intro a ha b hb
    simp only [List.mem_singleton] at hb
    subst hb
    obtain ⟨id, -, hid⟩ := List.mem_flatMap.1 ha
    obtain ⟨s, hs, rfl⟩ := List.mem_map.1 hid
    exact suf_time hs

/-- the entries of a row -/
def row (j : LLGBJunction T) (t : T) : List (String × T) := j.layers.flatMap layerEntries ++ [("time", t)]

theorem row_keys (j : LLGBJunction T) (t : T) : (row j t).map Prod.fst = llgbColumns j := by
  rw [columns_eq]
  simp only [row, List.map_append, List.map_flatMap, List.flatMap_map]
  rfl

/-! ## The invariant -/

/-- helper -/
structure Inv (j : LLGBJunction T) : Prop where
  tidy : j.log.Tidy
  sub : ∀ key ∈ j.log.keys, key ∈ llgbColumns j
  len : ∀ key ∈ llgbColumns j, (j.log.col key).length = j.logLength

theorem Inv.congr {j k : LLGBJunction T} (h : Inv j) (h1 : k.layers.map LLGBLayer.id = j.layers.map LLGBLayer.id) (h2 : k.log = j.log)
    (h3 : k.logLength = j.logLength) : Inv k := by
  have e : llgbColumns k = llgbColumns j := by rw [columns_eq, columns_eq, h1]
  exact ⟨h2 ▸ h.tidy, by rw [h2, e]; exact h.sub, by rw [h2, h3, e]; exact h.len⟩

theorem Inv.log {j : LLGBJunction T} (h : Inv j) (hd : (j.layers.map LLGBLayer.id).Nodup) (t : T) : Inv (j.logLayerParams t) := by
  have e : llgbColumns (j.logLayerParams t) = llgbColumns j := rfl
  have hn := columns_nodup j hd
  rw [← row_keys j t] at hn
  refine ⟨Log.tidy_pushAll h.tidy _, fun key hk => ?_, fun key hk => ?_⟩
  · have h1 := (Log.col_ne_nil (Log.tidy_pushAll h.tidy (row j t)) key).2 hk
    rw [Log.col_pushAll] at h1
    rw [e]
    by_contra hc
    rw [Log.vals_none (by rwa [row_keys]), List.append_nil] at h1
    exact hc (h.sub key ((Log.col_ne_nil h.tidy key).1 h1))
  · show (Log.col (j.log.pushAll (row j t)) key).length = j.logLength + 1
    rw [e] at hk
    rw [Log.col_pushAll, List.length_append, h.len key hk, Log.vals_length hn, row_keys, if_pos hk]

theorem tick_ids (r : Runner) (dt : T) (j : LLGBJunction T) : (tick r dt j).layers.map LLGBLayer.id = j.layers.map LLGBLayer.id := by
  simp only [tick, List.map_map]
  exact List.map_congr_left fun l _ => stepLayer_id r _ dt l

theorem loop_ids (r : Runner) (dt : T) (we n i : Nat) (j : LLGBJunction T) :
    (loop r dt we i n j).st.layers.map LLGBLayer.id = j.layers.map LLGBLayer.id := by
  induction n generalizing i j with
  | zero => rfl
  | succ n ih =>
    rw [loop_succ]
    split
    · exact tick_ids r dt j
    · split
      · exact (ih _ _).trans (tick_ids r dt j)
      · exact (ih _ _).trans (tick_ids r dt j)

theorem Inv.loop {j : LLGBJunction T} (h : Inv j) (hd : (j.layers.map LLGBLayer.id).Nodup) (r : Runner) (dt : T) (we n i : Nat) :
    Inv (loop r dt we i n j).st := by
  induction n generalizing i j with
  | zero => exact h
  | succ n ih =>
    rw [loop_succ]
    have e := tick_ids r dt j
    have h1 : Inv (tick r dt j) := h.congr e rfl rfl
    split
    · exact h1
    · split
      · exact ih (h1.log (e ▸ hd) (j.time + dt)) (e ▸ hd) (i + 1)
      · exact ih h1 (e ▸ hd) (i + 1)

theorem setter_st (j : LLGBJunction T) (id : String) (f : LLGBLayer T → LLGBLayer T) : (j.layerSetter id f).st =
    { j with layers := j.layers.map fun l => if l.id = id ∨ id = "all" then f l else l } := by
  unfold layerSetter; dsimp only; split <;> simp [Out.ok, Out.fail]

theorem setter_ids (j : LLGBJunction T) (id : String) (f : LLGBLayer T → LLGBLayer T) (hf : ∀ l, (f l).id = l.id) :
    (j.layerSetter id f).st.layers.map LLGBLayer.id = j.layers.map LLGBLayer.id := by
  rw [setter_st]
  simp only [List.map_map]
  refine List.map_congr_left fun l _ => ?_
  simp only [Function.comp]
  split
  · exact hf l
  · rfl

theorem call_ids (j : LLGBJunction T) (c : LLGBCall T) : (c.exec j).layers.map LLGBLayer.id = j.layers.map LLGBLayer.id := by
  cases c with
  | temperature id d => exact setter_ids j id _ fun _ => rfl
  | field id d => exact setter_ids j id _ fun _ => rfl
  | anisotropy id d => exact setter_ids j id _ fun _ => rfl
  | equilibrium id d => exact setter_ids j id _ fun _ => rfl
  | susceptibility id d => exact setter_ids j id _ fun _ => rfl
  | clearLog => rfl
  | run t dt w m =>
    simp only [LLGBCall.exec]
    unfold runSimulation
    split
    · rfl
    · split
      · split
        · rfl
        · exact loop_ids _ _ _ _ _ _
      · rfl

theorem Inv.call {j : LLGBJunction T} (h : Inv j) (hd : (j.layers.map LLGBLayer.id).Nodup) (c : LLGBCall T) : Inv (c.exec j) := by
  have hs : ∀ id (f : LLGBLayer T → LLGBLayer T), (∀ l, (f l).id = l.id) → Inv (j.layerSetter id f).st := fun id f hf =>
    h.congr (setter_ids j id f hf) (by rw [setter_st]) (by rw [setter_st])
  cases c with
  | temperature id d => exact hs id _ fun _ => rfl
  | field id d => exact hs id _ fun _ => rfl
  | anisotropy id d => exact hs id _ fun _ => rfl
  | equilibrium id d => exact hs id _ fun _ => rfl
  | susceptibility id d => exact hs id _ fun _ => rfl
  | clearLog => exact ⟨⟨List.nodup_nil, by intro k hk; cases hk⟩, (by intro k hk; cases hk), fun _ _ => rfl⟩
  | run t dt w m =>
    simp only [LLGBCall.exec]
    unfold runSimulation
    split
    · exact h
    · split
      · split
        · exact h
        · exact h.loop hd _ _ _ _ _
      · exact h

theorem calls_ids (cs : List (LLGBCall T)) (j : LLGBJunction T) :
    (cs.foldl (fun j c => c.exec j) j).layers.map LLGBLayer.id = j.layers.map LLGBLayer.id := by
  induction cs generalizing j with
  | nil => rfl
  | cons c cs ih => exact (ih _).trans (call_ids j c)

theorem calls_inv (cs : List (LLGBCall T)) (j : LLGBJunction T) (h : Inv j) (hd : (j.layers.map LLGBLayer.id).Nodup) :
    Inv (cs.foldl (fun j c => c.exec j) j) := by
  induction cs generalizing j with
  | nil => exact h
  | cons c cs ih => exact ih _ (h.call hd c) ((call_ids j c).symm ▸ hd)

theorem reachable_inv {j : LLGBJunction T} (h : LLGBReachable j) (hd : (j.layers.map LLGBLayer.id).Nodup) : Inv j := by
  obtain ⟨ls, cs, rfl⟩ := h
  rw [calls_ids] at hd
  exact calls_inv cs _ ⟨⟨List.nodup_nil, by intro k hk; cases hk⟩, (by intro k hk; cases hk), fun _ _ => rfl⟩ hd

/-! ## C66 -/

/-- C66: whatever was called on a junction with distinct layer ids (any ids), its log has every column once, each with one entry per
logged row; as soon as a row was logged the columns are exactly the expected ones. For every scalar type. -/
theorem C66_aligned (j : LLGBJunction T) (h : LLGBReachable j) (hd : (j.layers.map LLGBLayer.id).Nodup) :
    j.log.keys.Nodup ∧ (∀ key ∈ j.log.keys, (j.log.col key).length = j.logLength) ∧
    (0 < j.logLength → ∀ key, key ∈ j.log.keys ↔ key ∈ llgbColumns j) ∧ (llgbColumns j).Nodup := by
  obtain ⟨h1, h2, h3⟩ := reachable_inv h hd
  refine ⟨h1.1, fun key hk => h3 key (h2 key hk), fun h0 key => ⟨h2 key, fun hk => ?_⟩, columns_nodup j hd⟩
  rw [← Log.col_ne_nil h1]
  intro he
  have := h3 key hk
  rw [he] at this
  simp at this
  omega

/-- C66: `saveLogs` writes the header and all logged rows of such a junction. -/
theorem C66_save (j : LLGBJunction T) (h : LLGBReachable j) (hd : (j.layers.map LLGBLayer.id).Nodup) (name : String) (hn : name ≠ "") :
    ∃ rows, j.saveLogs name = .ok (j.log.keys, rows) ∧ rows.length = j.logLength ∧
      ∀ (i q : Nat) (key : String), i < j.logLength → j.log.keys[q]? = some key →
        ∃ row, rows[i]? = some row ∧ row.length = j.log.keys.length ∧ row[q]? = (j.log.col key)[i]? := by
  obtain ⟨hk, hl, -⟩ := C66_aligned j h hd
  have hlen : ∀ kv ∈ j.log, kv.2.length = j.logLength := fun kv hkv => by
    rw [← Log.col_of_mem hk hkv]; exact hl _ (List.mem_map.2 ⟨kv, hkv, rfl⟩)
  have hrow : ∀ i, i < j.logLength → ∃ row, j.log.mapM (fun kv => kv.2[i]?) = some row ∧ row.length = j.log.length ∧
      ∀ (q : Nat) (kv : String × List T), j.log[q]? = some kv → row[q]? = kv.2[i]? := by
    intro i hi
    exact Junction.mapM_some _ _ (fun kv hkv => ⟨_, List.getElem?_eq_getElem (by rw [hlen kv hkv]; exact hi)⟩)
  obtain ⟨rows, h1, h2, h3⟩ := Junction.mapM_some (fun i => j.log.mapM (fun kv => kv.2[i]?)) (List.range j.logLength) (fun i hi => by
    obtain ⟨row, hr, -⟩ := hrow i (List.mem_range.1 hi); exact ⟨row, hr⟩)
  refine ⟨rows, by rw [saveLogs, if_neg hn, h1], by simpa using h2, fun i q key hi hq => ?_⟩
  obtain ⟨row, r1, r2, r3⟩ := hrow i hi
  refine ⟨row, ?_, by rw [r2]; simp [Log.keys], ?_⟩
  · rw [h3 i i (by rw [List.getElem?_range hi]), r1]
  · simp only [Log.keys, List.getElem?_map, Option.map_eq_some_iff] at hq
    obtain ⟨kv, h4, rfl⟩ := hq
    rw [r3 q kv h4, Log.col_of_mem hk (List.mem_of_getElem? h4)]

/-- C66: `clearLog` empties the log, keeps the layers and puts the clock back to zero. -/
theorem C66_clear (j : LLGBJunction T) : j.clearLog.log = [] ∧ j.clearLog.logLength = 0 ∧ j.clearLog.layers = j.layers ∧
    j.clearLog.time = 0 := ⟨rfl, rfl, rfl, rfl⟩

/-- helper: the snapshots logged by the loop -/
theorem loop_log (r : Runner) (dt : T) (we : Nat) (hw : we ≠ 0) (j0 : LLGBJunction T) (n i : Nat) (j : LLGBJunction T)
    (hc : Core (evolve r dt i j0) j) :
    (loop r dt we i n j).st.log = j.log.pushAll (((List.range' i n).filter (we ∣ ·)).flatMap fun m =>
      row (evolve r dt (m + 1) j0) (evolve r dt (m + 1) j0).time) ∧
    (loop r dt we i n j).st.logLength = j.logLength + ((List.range' i n).filter (we ∣ ·)).length := by
  induction n generalizing i j with
  | zero => exact ⟨rfl, rfl⟩
  | succ n ih =>
    have h1 : Core (evolve r dt (i + 1) j0) (tick r dt j) := by
      rw [evolve_add]; exact hc.tick r dt
    rw [loop_succ, if_neg hw, List.range'_succ, List.filter_cons]
    split
    · rename_i hi
      rw [if_pos (by simpa using Nat.dvd_of_mod_eq_zero hi)]
      obtain ⟨a, b⟩ := ih (i + 1) ((tick r dt j).logLayerParams (j.time + dt)) h1
      rw [a, b, List.flatMap_cons, Log.pushAll_append]
      refine ⟨?_, by simp only [logLayerParams, List.length_cons, tick]; omega⟩
      congr 1
      have e : row (evolve r dt (i + 1) j0) (evolve r dt (i + 1) j0).time = row (tick r dt j) (j.time + dt) := by
        simp only [row, ← h1.1, ← h1.2, tick]
      rw [e]; rfl
    · rename_i hi
      rw [if_neg (by simpa using fun h => hi (Nat.mod_eq_zero_of_dvd h))]
      exact ih (i + 1) (tick r dt j) h1

theorem evolve_ids (r : Runner) (dt : T) (n : Nat) (j : LLGBJunction T) :
    (evolve r dt n j).layers.map LLGBLayer.id = j.layers.map LLGBLayer.id := by
  induction n generalizing j with
  | zero => rfl
  | succ n ih => exact (ih _).trans (tick_ids r dt j)

theorem evolve_time (r : Runner) (dt : T) (n : Nat) (j : LLGBJunction T) : (evolve r dt n j).time = clock dt j.time n := by
  induction n with
  | zero => rfl
  | succ n ih => rw [evolve_add, clock, ← ih]; rfl

/-- The values a column of a layer shows. -/
def shown : List (String × (LLGBLayer T → T)) :=
  [("_mx", (·.mag.x)), ("_my", (·.mag.y)), ("_mz", (·.mag.z)), ("_alpha_parallel", (·.alphaParLog)),
   ("_alpha_perpendicular", (·.alphaPerpLog)), ("_K", (·.KLog)), ("_T", (·.TLog)), ("_me", (·.me)), ("_Xpar", (·.susceptibility))]

theorem vals_layer {j : LLGBJunction T} (hd : (j.layers.map LLGBLayer.id).Nodup) {l : LLGBLayer T} (hl : l ∈ j.layers) {s : String}
    {f : LLGBLayer T → T} (hs : (s, f) ∈ (shown : List (String × (LLGBLayer T → T)))) (t : T) : Log.vals (row j t) (l.id ++ s) = [f l] := by
  have hn := columns_nodup j hd
  rw [← row_keys j t] at hn
  refine Log.vals_one hn (List.mem_append_left _ (List.mem_flatMap.2 ⟨l, hl, ?_⟩))
  simp only [shown, List.mem_cons, Prod.mk.injEq, List.not_mem_nil, or_false] at hs
  rcases hs with ⟨rfl, rfl⟩ | ⟨rfl, rfl⟩ | ⟨rfl, rfl⟩ | ⟨rfl, rfl⟩ | ⟨rfl, rfl⟩ | ⟨rfl, rfl⟩ | ⟨rfl, rfl⟩ | ⟨rfl, rfl⟩ | ⟨rfl, rfl⟩ <;>
    simp [layerEntries]

theorem vals_time {j : LLGBJunction T} (hd : (j.layers.map LLGBLayer.id).Nodup) (t : T) : Log.vals (row j t) "time" = [t] := by
  have hn := columns_nodup j hd
  rw [← row_keys j t] at hn
  exact Log.vals_one hn (by simp [row])

/-- C66: a successful run of `n` steps that writes every `w`-th step appends one row after step 1, w+1, 2w+1, ...: the time column
gets the clock after those steps, and the columns of the layers what a run of just that many steps leaves in the layers. The rows already
logged stay. For every scalar type. -/
theorem C66_run {j k : LLGBJunction T} {total dt wf : T} {mode : SolverMode} {n w : Nat} (hd : (j.layers.map LLGBLayer.id).Nodup)
    (hn : Stack.castUnsigned (total / dt) = some n) (hw : Stack.castUnsigned (wf / dt) = some w)
    (h : j.runSimulation total dt wf mode = .ok () k) :
    k.logLength = j.logLength + (sampleSteps n w).length ∧
    k.log.col "time" = j.log.col "time" ++ (sampleSteps n w).map (fun i => clock dt j.time (i + 1)) ∧
    k.time = clock dt j.time n ∧
    ∃ snap : Nat → LLGBJunction T,
      (∀ i total' wf' k', Stack.castUnsigned (total' / dt) = some i → j.runSimulation total' dt wf' mode = .ok () k' →
        (snap i).layers = k'.layers) ∧
      ∀ (q : Nat) (l : LLGBLayer T), j.layers[q]? = some l → ∀ sf ∈ (shown : List (String × (LLGBLayer T → T))), ∃ at' : Nat → LLGBLayer T,
        (∀ i, (snap i).layers[q]? = some (at' i)) ∧
        k.log.col (l.id ++ sf.1) = j.log.col (l.id ++ sf.1) ++ (sampleSteps n w).map (fun i => sf.2 (at' (i + 1))) := by
  obtain ⟨-, n', w', r, hn', hw', hr, hl⟩ := run_inv h
  rw [hn] at hn'; rw [hw] at hw'
  simp only [Option.some.injEq] at hn' hw'
  subst hn' hw'
  have hcore := run_core h hn hr
  have hlog : k.log = j.log.pushAll ((sampleSteps n w).flatMap fun m => row (evolve r dt (m + 1) j) (evolve r dt (m + 1) j).time) ∧
      k.logLength = j.logLength + (sampleSteps n w).length := by
    rcases Nat.eq_zero_or_pos w with rfl | hw0
    · cases n with
      | zero => simp only [loop, Out.ok, Out.mk.injEq, true_and] at hl; subst hl; exact ⟨rfl, rfl⟩
      | succ n => rw [loop_succ, if_pos rfl] at hl; simp [Out.ok, Out.fail] at hl
    · have := loop_log r dt w hw0.ne' j n 0 j ⟨rfl, rfl⟩
      rw [hl, ← List.range_eq_range'] at this
      exact this
  have hcol : ∀ key (g : LLGBJunction T → T), (∀ m, Log.vals (row (evolve r dt m j) (evolve r dt m j).time) key = [g (evolve r dt m j)]) →
      k.log.col key = j.log.col key ++ (sampleSteps n w).map fun i => g (evolve r dt (i + 1) j) := by
    intro key g hg
    rw [hlog.1, Log.col_pushAll, Log.vals_flatMap]
    congr 1
    rw [List.map_eq_flatMap]
    exact List.flatMap_congr fun m _ => hg (m + 1)
  refine ⟨hlog.2, ?_, ?_, fun i => evolve r dt i j, fun i total' wf' k' hi hk' => ((run_core hk' hi hr).1).symm, ?_⟩
  · rw [hcol "time" (·.time) fun m => vals_time (by rw [evolve_ids]; exact hd) _]
    simp only [evolve_time]
  · rw [hcore.2, evolve_time]
  · rintro q l hq ⟨s, f⟩ hsf
    have hget : ∀ i, ∃ l' : LLGBLayer T, (evolve r dt i j).layers[q]? = some l' ∧ l'.id = l.id := by
      intro i
      have := congrArg (fun x => x[q]?) (evolve_ids r dt i j)
      simp only [List.getElem?_map, hq, Option.map_some] at this
      exact Option.map_eq_some_iff.1 this
    choose at' ha hid using hget
    refine ⟨at', ha, ?_⟩
    have key : ∀ m, Log.vals (row (evolve r dt m j) (evolve r dt m j).time) (l.id ++ s) = [f (((evolve r dt m j).layers[q]?).getD l)] := by
      intro m
      have h1 := vals_layer (j := evolve r dt m j) (by rw [evolve_ids]; exact hd) (List.mem_of_getElem? (ha m)) hsf (evolve r dt m j).time
      rw [hid m] at h1
      rw [h1, ha m]; rfl
    rw [hcol (l.id ++ s) (fun x => f ((x.layers[q]?).getD l)) key]
    simp only [ha, Option.getD_some]

/-- C66, the values recorded with a row: after a step at time `t` with Euler–Heun the temperature and the anisotropy are those at `t`, the
time of the row. -/
theorem C66_recorded_eulerHeun_partial (l : LLGBLayer T) (t dt : T) : (stepLayer .eulerHeun t dt l).TLog = l.temperatureDriver.value t ∧
    (stepLayer .eulerHeun t dt l).KLog = l.anisotropyDriver.value t := ⟨rfl, rfl⟩

/-- C66, what holds for Heun: the recorded temperature and anisotropy are those one step after the time of the row. -/
theorem C66_recorded_heun (l : LLGBLayer T) (t dt : T) : (stepLayer .heun t dt l).TLog = l.temperatureDriver.value (t + dt) ∧
    (stepLayer .heun t dt l).KLog = l.anisotropyDriver.value (t + dt) := ⟨rfl, rfl⟩

/-! ## C67 -/

/-- helper -/
theorem setter_spec (j : LLGBJunction T) (id : String) (f : LLGBLayer T → LLGBLayer T) :
    (j.layerSetter id f).st = { j with layers := j.layers.map fun l => if l.id = id ∨ id = "all" then f l else l } ∧
    ((j.layerSetter id f).res = .ok () ↔ ∃ l ∈ j.layers, l.id = id ∨ id = "all") ∧
    ((¬ ∃ l ∈ j.layers, l.id = id ∨ id = "all") → j.layerSetter id f = .fail .layerNotFound j) := by
  refine ⟨setter_st j id f, ?_, fun h => ?_⟩
  · unfold layerSetter
    dsimp only
    split
    · rename_i h; simpa [Out.ok] using h
    · rename_i h; simpa [Out.fail] using h
  · push Not at h
    have h1 : j.layers.any (fun l : LLGBLayer T => decide (l.id = id ∨ id = "all")) = false := by
      rw [List.any_eq_false]; intro l hl; simpa using h l hl
    have h2 : (j.layers.map fun l : LLGBLayer T => if decide (l.id = id ∨ id = "all") then f l else l) = j.layers := by
      conv_rhs => rw [← List.map_id j.layers]
      refine List.map_congr_left fun l hl => ?_
      rw [if_neg (by simpa using h l hl)]; rfl
    unfold layerSetter
    dsimp only
    rw [h1, h2]; rfl

/-- C67: each setter gives its value to the layers with that id, or to all layers for the id "all", and to no other; nothing else
changes (clock, log and all other parameters of the layers). -/
theorem C67_reaches (j : LLGBJunction T) (id : String) :
    (∀ d, (j.setLayerTemperatureDriver id d).st =
      { j with layers := j.layers.map fun l => if l.id = id ∨ id = "all" then { l with temperatureDriver := d } else l }) ∧
    (∀ d, (j.setLayerExternalFieldDriver id d).st =
      { j with layers := j.layers.map fun l => if l.id = id ∨ id = "all" then { l with externalFieldDriver := d } else l }) ∧
    (∀ d, (j.setLayerAnisotropyDriver id d).st =
      { j with layers := j.layers.map fun l => if l.id = id ∨ id = "all" then { l with anisotropyDriver := d } else l }) ∧
    (∀ m, (j.setLayerEquilibriumMagnetisation id m).st =
      { j with layers := j.layers.map fun l => if l.id = id ∨ id = "all" then { l with me := m } else l }) ∧
    ∀ s, (j.setLayerSusceptibility id s).st =
      { j with layers := j.layers.map fun l => if l.id = id ∨ id = "all" then { l with susceptibility := s } else l } :=
  ⟨fun _ => (setter_spec j id _).1, fun _ => (setter_spec j id _).1, fun _ => (setter_spec j id _).1, fun _ => (setter_spec j id _).1,
    fun _ => (setter_spec j id _).1⟩

/-- C67: a setter succeeds exactly when it reaches a layer; otherwise it throws and leaves the junction as it was. -/
theorem C67_unknown (j : LLGBJunction T) (id : String) (c : Out (LLGBJunction T) Unit)
    (hc : (∃ d, c = j.setLayerTemperatureDriver id d) ∨ (∃ d, c = j.setLayerExternalFieldDriver id d) ∨
      (∃ d, c = j.setLayerAnisotropyDriver id d) ∨ (∃ m, c = j.setLayerEquilibriumMagnetisation id m) ∨
      ∃ s, c = j.setLayerSusceptibility id s) :
    (c.res = .ok () ↔ ∃ l ∈ j.layers, l.id = id ∨ id = "all") ∧
    ((¬ ∃ l ∈ j.layers, l.id = id ∨ id = "all") → c = .fail .layerNotFound j) := by
  rcases hc with ⟨_, rfl⟩ | ⟨_, rfl⟩ | ⟨_, rfl⟩ | ⟨_, rfl⟩ | ⟨_, rfl⟩ <;> exact (setter_spec j id _).2

end

/-! ## Concrete cases -/

/-- A temperature driver that is switched on at time 2. -/
noncomputable def heated : LLGBLayer ℝ :=
  { LLGBLayer.warmLayer with temperatureDriver := ⟨.step, 0, 1, 0, 0, 0, 0, 2, 3, 0, 0⟩ }

/-- C66 refuted for Heun: a run of one step of length 1 writes a row at time 1 whose temperature is that at time 2. -/
theorem C66_recorded_refuted : ∃ (ls : List (LLGBLayer ℝ)) (l : LLGBLayer ℝ) (k : LLGBJunction ℝ), ls = [l] ∧
    (mk' ls).runSimulation 1 1 1 .HEUN = .ok () k ∧ k.log.col "time" = [1] ∧ k.log.col (l.id ++ "_T") = [1] ∧
    l.temperatureDriver.value 1 = 0 := by
  have c1 : Stack.castUnsigned ((1 : ℝ) / 1) = some 1 := by rw [cast_floor] <;> norm_num
  have h0 : Scalar.ltb (1 : ℝ) 1 = false := by simp
  obtain ⟨k, hk⟩ := C29_llgb_succeeds (mk' [heated]) (mode := .HEUN) h0 c1 c1 (by norm_num) (.inl rfl)
  refine ⟨[heated], heated, k, rfl, hk, ?_⟩
  have hv : ∀ t, heated.temperatureDriver.value t = if 2 ≤ t ∧ t ≤ 3 then 1 else 0 := by
    intro t
    simp only [heated, ScalarDriver.value, ScalarDriver.stepUpdate]
    simp
  obtain ⟨-, ht, -, snap, hs, hl⟩ := C66_run (by simp [mk']) c1 c1 hk
  have hsteps : sampleSteps 1 1 = [0] := by decide
  obtain ⟨at', ha, hT⟩ := hl 0 heated rfl ("_T", fun l : LLGBLayer ℝ => l.TLog) (by simp [shown])
  refine ⟨?_, ?_, ?_⟩
  · rw [ht, hsteps]; simp [mk', Log.col, clock]
  · rw [hT, hsteps]
    have h1 : (snap 1).layers = k.layers := hs 1 1 1 k c1 hk
    have h2 := ha 1
    have h3 := (run_core (r := .heun) hk c1 rfl).1
    rw [h1, h3] at h2
    simp only [evolve, tick, mk', List.map_cons, List.map_nil, List.getElem?_cons_zero, Option.some.injEq] at h2
    simp only [List.map_cons, List.map_nil, mk', Log.col, List.nil_append, zero_add, ← h2]
    rw [(C66_recorded_heun _ _ _).1, hv, if_pos]
    simp only [Scalar.ofNat_real]
    norm_num
  · rw [hv]; norm_num

/-- The hypotheses of `C66_aligned` and `C66_run` hold for two layers with underscores in their ids. -/
example : ∃ ls : List (LLGBLayer ℝ), ((mk' ls).layers.map LLGBLayer.id) = ["a", "a_alpha"] ∧
    ((mk' ls).layers.map LLGBLayer.id).Nodup ∧ LLGBReachable (mk' ls) ∧
    ∃ k, (mk' ls).runSimulation 3 1 1 .HEUN = .ok () k ∧ k.logLength = 3 := by
  have c1 : Stack.castUnsigned ((1 : ℝ) / 1) = some 1 := by rw [cast_floor] <;> norm_num
  have c3 : Stack.castUnsigned ((3 : ℝ) / 1) = some 3 := by rw [cast_floor] <;> norm_num
  have h0 : Scalar.ltb (1 : ℝ) 1 = false := by simp
  have hd : ((mk' [{ heated with id := "a" }, { heated with id := "a_alpha" }]).layers.map LLGBLayer.id).Nodup := by simp [mk']
  obtain ⟨k, hk⟩ := C29_llgb_succeeds (mk' [{ heated with id := "a" }, { heated with id := "a_alpha" }]) (mode := .HEUN) h0 c3 c1
    (by norm_num) (.inl rfl)
  refine ⟨_, rfl, hd, ⟨_, [], rfl⟩, k, hk, ?_⟩
  rw [(C66_run hd c3 c1 hk).1]
  rfl

end LLGBJunction
