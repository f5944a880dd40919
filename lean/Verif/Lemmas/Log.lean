import Verif.Lemmas.Frame
import Verif.Lemmas.Steps

/-! Helper lemmas on logs. -/

set_option linter.unusedSectionVars false

namespace Log
variable {T : Type}

theorem col_push (l : Log T) (k key : String) (x : T) :
    (l.push k x).col key = if k = key then l.col key ++ [x] else l.col key := by
  induction l with
  | nil => simp only [push, col]; split <;> simp
  | cons p l ih =>
    obtain ⟨k0, v⟩ := p
    simp only [push]
    split
    · rename_i h; subst h; simp only [col]; split <;> simp
    · rename_i h
      simp only [col, ih]
      split
      · rename_i h1; subst h1; rw [if_neg (fun h' => h h'.symm)]
      · rfl

theorem pushAll_nil (l : Log T) : l.pushAll [] = l := rfl
theorem pushAll_cons (l : Log T) (p : String × T) (ps : List (String × T)) :
    l.pushAll (p :: ps) = (l.push p.1 p.2).pushAll ps := rfl
theorem pushAll_append (l : Log T) (ps qs : List (String × T)) : l.pushAll (ps ++ qs) = (l.pushAll ps).pushAll qs :=
  List.foldl_append

/-- the values a list of entries holds for a key -/
def vals (ps : List (String × T)) (key : String) : List T := (ps.filter (fun p => p.1 = key)).map Prod.snd

theorem vals_nil (key : String) : vals ([] : List (String × T)) key = [] := rfl
theorem vals_append (ps qs : List (String × T)) (key : String) : vals (ps ++ qs) key = vals ps key ++ vals qs key := by
  simp [vals]
theorem vals_cons (p : String × T) (ps : List (String × T)) (key : String) :
    vals (p :: ps) key = (if p.1 = key then [p.2] else []) ++ vals ps key := by
  simp only [vals, List.filter_cons]; split <;> simp_all
theorem vals_flatMap {α : Type} (f : α → List (String × T)) (l : List α) (key : String) :
    vals (l.flatMap f) key = l.flatMap fun a => vals (f a) key := by
  induction l with
  | nil => rfl
  | cons a l ih => simp [vals_append, ih]
theorem vals_none {ps : List (String × T)} {key : String} (h : key ∉ ps.map Prod.fst) : vals ps key = [] := by
  unfold vals
  rw [List.map_eq_nil_iff, List.filter_eq_nil_iff]
  intro p hp hk
  exact h (List.mem_map.2 ⟨p, hp, by simpa using hk⟩)
theorem vals_one {ps : List (String × T)} {key : String} {x : T} (hn : (ps.map Prod.fst).Nodup) (h : (key, x) ∈ ps) :
    vals ps key = [x] := by
  induction ps with
  | nil => cases h
  | cons p ps ih =>
    simp only [List.map_cons, List.nodup_cons] at hn
    rw [vals_cons]
    rcases List.mem_cons.1 h with h | h
    · subst h
      rw [vals_none hn.1, if_pos rfl]; rfl
    · have : p.1 ≠ key := by
        rintro rfl; exact hn.1 (List.mem_map.2 ⟨_, h, rfl⟩)
      rw [if_neg this, ih hn.2 h]; rfl
theorem vals_length {ps : List (String × T)} {key : String} (hn : (ps.map Prod.fst).Nodup) :
    (vals ps key).length = if key ∈ ps.map Prod.fst then 1 else 0 := by
  split
  · rename_i h
    obtain ⟨p, hp, rfl⟩ := List.mem_map.1 h
    rw [vals_one hn (x := p.2) hp]; rfl
  · rename_i h; rw [vals_none h]; rfl

theorem col_pushAll (l : Log T) (ps : List (String × T)) (key : String) :
    (l.pushAll ps).col key = l.col key ++ vals ps key := by
  induction ps generalizing l with
  | nil => simp [pushAll_nil, vals]
  | cons p ps ih =>
    rw [pushAll_cons, ih, vals_cons, col_push]
    split <;> simp

/-- every key once, no empty column -/
def Tidy (l : Log T) : Prop := l.keys.Nodup ∧ ∀ kv ∈ l, kv.2 ≠ []

theorem mem_push {l : Log T} {k : String} {x : T} {kv : String × List T} (h : kv ∈ l.push k x) :
    kv ∈ l ∨ (kv.1 = k ∧ kv.2 ≠ []) := by
  induction l with
  | nil => simp only [push, List.mem_singleton] at h; subst h; simp
  | cons p l ih =>
    obtain ⟨k0, v⟩ := p
    simp only [push] at h
    split at h
    · rcases List.mem_cons.1 h with h | h
      · subst h; right; simp_all
      · left; exact List.mem_cons_of_mem _ h
    · rcases List.mem_cons.1 h with h | h
      · subst h; left; exact List.mem_cons_self
      · rcases ih h with h | h
        · left; exact List.mem_cons_of_mem _ h
        · right; exact h

theorem tidy_push {l : Log T} (h : l.Tidy) (k : String) (x : T) : (l.push k x).Tidy := by
  refine ⟨?_, fun kv hkv => ?_⟩
  · have h1 := h.1
    clear h
    induction l with
    | nil => simp [push, keys]
    | cons p l ih =>
      obtain ⟨k0, v⟩ := p
      simp only [keys, List.map_cons, List.nodup_cons] at h1 ih
      simp only [push]
      split
      · simpa [keys] using h1
      · rename_i hk
        simp only [keys, List.map_cons, List.nodup_cons]
        refine ⟨?_, ih h1.2⟩
        intro hm
        obtain ⟨kv, hkv, he⟩ := List.mem_map.1 hm
        rcases mem_push hkv with h | h
        · exact h1.1 (List.mem_map.2 ⟨kv, h, he⟩)
        · exact hk (he.symm.trans h.1)
  · rcases mem_push hkv with h' | h'
    · exact h.2 kv h'
    · exact h'.2

theorem tidy_pushAll {l : Log T} (h : l.Tidy) (ps : List (String × T)) : (l.pushAll ps).Tidy := by
  induction ps generalizing l with
  | nil => exact h
  | cons p ps ih => exact ih (tidy_push h _ _)

theorem col_of_mem {l : Log T} (h : l.keys.Nodup) {kv : String × List T} (hm : kv ∈ l) : l.col kv.1 = kv.2 := by
  induction l with
  | nil => cases hm
  | cons p l ih =>
    obtain ⟨k0, v⟩ := p
    simp only [keys, List.map_cons, List.nodup_cons] at h
    rcases List.mem_cons.1 hm with h' | h'
    · subst h'; simp [col]
    · have : k0 ≠ kv.1 := by rintro rfl; exact h.1 (List.mem_map.2 ⟨kv, h', rfl⟩)
      simp only [col, if_neg this]
      exact ih h.2 h'

theorem col_ne_nil {l : Log T} (h : l.Tidy) (key : String) : l.col key ≠ [] ↔ key ∈ l.keys := by
  induction l with
  | nil => simp [col, keys]
  | cons p l ih =>
    obtain ⟨k0, v⟩ := p
    have ht : Tidy l := ⟨(List.nodup_cons.1 (by simpa [keys] using h.1)).2, fun kv hkv => h.2 kv (List.mem_cons_of_mem _ hkv)⟩
    simp only [col, keys, List.map_cons, List.mem_cons]
    split
    · rename_i hk; subst hk
      simpa using h.2 (k0, v) List.mem_cons_self
    · rename_i hk
      rw [ih ht]
      constructor
      · intro h'; right; exact h'
      · rintro (h' | h')
        · exact absurd h'.symm hk
        · exact h'

end Log

namespace Junction
open Spec Layer
variable {T : Type} [Scalar T]

/-- Everything appended for one logged instant. -/
def rowOf (j : Junction T) (en : Bool) (p : List (Layer T) × T) : List (String × T) :=
  p.1.flatMap (layerEntries · en) ++ (match (j.withLayers p.1).mrEntries with | .ok mr => mr | .error _ => []) ++ [("time", p.2)]

/-- the junction with another log -/
def setLog (j : Junction T) (L : Log T) (n : Nat) : Junction T := { j with log := L, logLength := n }

theorem log_row (j : Junction T) (t : T) (en : Bool) (h : j.MrOk) :
    j.logLayerParams t en = .ok () (j.setLog (j.log.pushAll (rowOf j en (j.layers, t))) (j.logLength + 1)) := by
  obtain ⟨mr, hm⟩ := mrEntries_ok j h
  unfold logLayerParams rowOf
  dsimp only
  rw [withLayers_self, hm, Log.pushAll_append, Log.pushAll_append]
  rfl

theorem evolve_layers (r : Runner) (dt : T) (i n : Nat) (j k : Junction T) (h : j.layers = k.layers) :
    (evolve r dt i n j).st.layers = (evolve r dt i n k).st.layers := by
  have := simEq.evolve r dt (i := i) (i' := i) (fun _ => rfl) n (forall₂_eq.2 h)
  generalize evolve r dt i n j = x at this
  generalize evolve r dt i n k = y at this
  cases this with
  | ok hq hr => exact forall₂_eq.1 hr
  | fail hr => exact forall₂_eq.1 hr

/-- the instants at which a run is logged -/
def logged (r : Runner) (dt : T) (we i n : Nat) (j : Junction T) : List (List (Layer T) × T) :=
  ((List.range' i n).filter (fun m => m % we = 0)).map fun m => ((evolve r dt i (m + 1 - i) j).st.layers, Scalar.lit (m : ℚ) * dt)

theorem rowOf_congr {j k : Junction T} (h : j.SameParams k) (en : Bool) (p : List (Layer T) × T) : rowOf j en p = rowOf k en p := by
  obtain ⟨a1, a2, a3, a4, a5, a6, a7, a8, a9, a10, a11, a12⟩ := h
  unfold rowOf
  have : (j.withLayers p.1).mrEntries = (k.withLayers p.1).mrEntries := by
    unfold mrEntries stripMagnetoResistance calculateMagnetoresistance withLayers
    dsimp only
    rw [a1, a2, a3, a4, a5, a6, a7, a8, a9, a10, a11]
  rw [this]

/-- A successful loop appends exactly the rows of the logged instants. -/
theorem runLoop_log {r : Runner} {dt : T} {we : Nat} {en : Bool} {n i : Nat} {j k : Junction T} (hm : j.MrOk)
    (h : runLoop r dt we en i n j = .ok () k) :
    k.log = j.log.pushAll ((logged r dt we i n j).flatMap (rowOf j en)) ∧
    k.logLength = j.logLength + (logged r dt we i n j).length ∧ (n ≠ 0 → we ≠ 0) ∧
    k.layers = (evolve r dt i n j).st.layers := by
  induction n generalizing i j with
  | zero =>
    simp only [runLoop, Out.ok, Out.mk.injEq, true_and] at h
    subst h; simp [logged, Log.pushAll_nil, evolve]
  | succ n ih =>
    unfold runLoop at h
    obtain ⟨h1, h2⟩ := bind_unit_ok h
    set j1 := (j.runStep r (Scalar.lit (i : ℚ) * dt) dt).st with hj1
    have hp : j.SameParams j1 := runStep_params j r _ dt
    have hf : j1 = j.withLayers j1.layers := runStep_frame j r _ dt
    have hstep : ∀ q, evolve r dt i (q + 1) j = evolve r dt (i + 1) q j1 := by
      intro q; simp only [evolve]; rw [h1]; rfl
    have hrest : ∀ j2 : Junction T, j2.layers = j1.layers → logged r dt we (i + 1) n j2 =
        ((List.range' (i + 1) n).filter (fun m => m % we = 0)).map
          fun m => ((evolve r dt i (m + 1 - i) j).st.layers, Scalar.lit (m : ℚ) * dt) := by
      intro j2 hj2
      unfold logged
      refine List.map_congr_left fun m hm => ?_
      have hm' : i + 1 ≤ m := by
        have := (List.mem_filter.1 hm).1
        rw [List.mem_range'] at this; obtain ⟨q, _, rfl⟩ := this; omega
      rw [show m + 1 - i = (m - i) + 1 by omega, hstep, show m + 1 - (i + 1) = m - i by omega,
        evolve_layers r dt (i + 1) (m - i) j2 j1 hj2]
    split at h2
    · simp [Out.ok, Out.fail] at h2
    · rename_i hwe
      have hhead : (evolve r dt i (i + 1 - i) j).st.layers = j1.layers := by
        rw [show i + 1 - i = 0 + 1 by omega, hstep]; rfl
      split at h2
      · rename_i hi
        rw [log_row j1 _ en (hp.mrOk hm)] at h2
        simp only [Out.bind_ok] at h2
        set j2 := j1.setLog (j1.log.pushAll (rowOf j1 en (j1.layers, Scalar.lit (i : ℚ) * dt))) (j1.logLength + 1) with hj2
        have hp2 : j.SameParams j2 := hp.trans (SameParams.refl j1)
        obtain ⟨e1, e2, e3, e4⟩ := ih (hp2.mrOk hm) h2
        have hl : logged r dt we i (n + 1) j = (j1.layers, Scalar.lit (i : ℚ) * dt) :: logged r dt we (i + 1) n j2 := by
          rw [hrest j2 rfl]
          unfold logged
          rw [List.range'_succ, List.filter_cons, if_pos (by simpa using hi), List.map_cons, hhead]
        have hlog : j1.log = j.log := by rw [hf]; rfl
        have hlen : j1.logLength = j.logLength := by rw [hf]; rfl
        refine ⟨?_, ?_, fun _ => hwe, ?_⟩
        · rw [e1, hl, List.flatMap_cons, Log.pushAll_append, hj2]
          have : rowOf j1 en = rowOf j en := funext fun p => (rowOf_congr hp en p).symm
          change (Log.pushAll (j1.log.pushAll (rowOf j1 en _)) (List.flatMap (rowOf j1 en) _)) = _
          rw [this, hlog]
        · rw [e2, hl, List.length_cons]; change j1.logLength + 1 + _ = _; rw [hlen]; omega
        · rw [e4, hstep]; exact evolve_layers r dt (i + 1) n j2 j1 rfl
      · rename_i hi
        obtain ⟨e1, e2, e3, e4⟩ := ih (hp.mrOk hm) h2
        have hl : logged r dt we i (n + 1) j = logged r dt we (i + 1) n j1 := by
          rw [hrest j1 rfl]
          unfold logged
          rw [List.range'_succ, List.filter_cons, if_neg (by simpa using hi)]
        have hlog : j1.log = j.log := by rw [hf]; rfl
        have hlen : j1.logLength = j.logLength := by rw [hf]; rfl
        refine ⟨?_, ?_, fun _ => hwe, ?_⟩
        · rw [e1, hl, hlog]
          have : rowOf j1 en = rowOf j en := funext fun p => (rowOf_congr hp en p).symm
          rw [this]
        · rw [e2, hl, hlen]
        · rw [e4, hstep]

/-- Whatever the outcome, a loop only appends whole rows, taken from states of the same layers. -/
theorem runLoop_rows (r : Runner) (dt : T) (we : Nat) (en : Bool) (n i : Nat) (j : Junction T) (hm : j.MrOk) :
    ∃ rows : List (List (Layer T) × T), (runLoop r dt we en i n j).st.log = j.log.pushAll (rows.flatMap (rowOf j en)) ∧
      (runLoop r dt we en i n j).st.logLength = j.logLength + rows.length ∧
      ∀ p ∈ rows, List.Forall₂ Same j.layers p.1 := by
  induction n generalizing i j with
  | zero => exact ⟨[], rfl, rfl, by simp⟩
  | succ n ih =>
    unfold runLoop
    dsimp only
    have hp := runStep_params j r (Scalar.lit (i : ℚ) * dt) dt
    have hf := runStep_frame j r (Scalar.lit (i : ℚ) * dt) dt
    have hs := runStep_same j r (Scalar.lit (i : ℚ) * dt) dt
    generalize j.runStep r (Scalar.lit (i : ℚ) * dt) dt = x at hp hf hs
    rcases x with ⟨_ | _, j1⟩
    · dsimp only at hf; exact ⟨[], by simp only [Out.bind]; rw [hf]; rfl, by simp only [Out.bind]; rw [hf]; rfl, by simp⟩
    · simp only [Out.bind]
      dsimp only at hp hf hs
      have hlog : j1.log = j.log := by rw [hf]; rfl
      have hlen : j1.logLength = j.logLength := by rw [hf]; rfl
      have hr : rowOf j1 en = rowOf j en := funext fun p => (rowOf_congr hp en p).symm
      split
      · exact ⟨[], hlog, hlen, by simp⟩
      · split
        · rw [log_row j1 _ en (hp.mrOk hm)]
          dsimp only [Out.ok]
          set j2 := j1.setLog (j1.log.pushAll (rowOf j1 en (j1.layers, Scalar.lit (i : ℚ) * dt))) (j1.logLength + 1) with hj2
          obtain ⟨rows, e1, e2, e3⟩ := ih (i + 1) j2 ((hp.trans (SameParams.refl j1)).mrOk hm)
          refine ⟨(j1.layers, Scalar.lit (i : ℚ) * dt) :: rows, ?_, ?_, ?_⟩
          · rw [e1, List.flatMap_cons, Log.pushAll_append, ← hr, ← hlog]; rfl
          · rw [e2, List.length_cons, ← hlen]; change j1.logLength + 1 + _ = _; omega
          · intro p hpm
            rcases List.mem_cons.1 hpm with h | h
            · subst h; exact hs
            · exact sames_trans hs (e3 p h)
        · obtain ⟨rows, e1, e2, e3⟩ := ih (i + 1) j1 (hp.mrOk hm)
          exact ⟨rows, by rw [e1, ← hr, hlog], by rw [e2, hlen], fun p h => sames_trans hs (e3 p h)⟩

theorem getSolver_frame (j : Junction T) (mode : SolverMode) (n : Nat) :
    (j.getSolver mode n).st = j.withLayers (j.getSolver mode n).st.layers := by
  unfold getSolver
  rcases solverLoop n mode j.layers with ⟨_ | _, ls⟩ <;> rfl

theorem runSimulation_rows (j : Junction T) (total dt wf : T) (en : Bool) (mode : SolverMode) (hm : j.MrOk) :
    ∃ rows : List (List (Layer T) × T), (j.runSimulation total dt wf en mode).st.log = j.log.pushAll (rows.flatMap (rowOf j en)) ∧
      (j.runSimulation total dt wf en mode).st.logLength = j.logLength + rows.length ∧
      ∀ p ∈ rows, List.Forall₂ Same j.layers p.1 := by
  unfold runSimulation
  split
  · exact ⟨[], rfl, rfl, by simp⟩
  · split
    · rename_i N W _ _
      have hp := Sim.getSolver_params j mode N
      have hf := getSolver_frame j mode N
      have hs := getSolver_same j mode N
      generalize j.getSolver mode N = x at hp hf hs
      rcases x with ⟨_ | ⟨r, m⟩, j1⟩
      · dsimp only at hf; exact ⟨[], by simp only [Out.bind]; rw [hf]; rfl, by simp only [Out.bind]; rw [hf]; rfl, by simp⟩
      · simp only [Out.bind]
        dsimp only at hp hf hs
        obtain ⟨rows, e1, e2, e3⟩ := runLoop_rows r dt W en N 0 j1 (hp.mrOk hm)
        have hlog : j1.log = j.log := by rw [hf]; rfl
        have hlen : j1.logLength = j.logLength := by rw [hf]; rfl
        have hr : rowOf j1 en = rowOf j en := funext fun p => (rowOf_congr hp en p).symm
        exact ⟨rows, by rw [e1, ← hr, hlog], by rw [e2, hlen], fun p h => sames_trans hs (e3 p h)⟩
    · exact ⟨[], rfl, rfl, by simp⟩

theorem runSimulation_log {j k : Junction T} {total dt wf : T} {en : Bool} {mode : SolverMode} (hm : j.MrOk)
    (h : j.runSimulation total dt wf en mode = .ok () k) :
    ∃ N W r m j1, Scalar.ltb wf dt = false ∧ Scalar.toUInt (total / dt) = some N ∧ Scalar.toUInt (wf / dt) = some W ∧
      j.getSolver mode N = .ok (r, m) j1 ∧ (N ≠ 0 → W ≠ 0) ∧
      k.log = j.log.pushAll ((logged r dt W 0 N j1).flatMap (rowOf j en)) ∧
      k.logLength = j.logLength + (logged r dt W 0 N j1).length ∧ k.layers = (evolve r dt 0 N j1).st.layers := by
  obtain ⟨N, W, r, m, j1, hw, hN, hW, hg, hl⟩ := Sim.run_inv h
  have hp := Sim.getSolver_params j mode N
  have hf := getSolver_frame j mode N
  rw [hg] at hp hf
  dsimp only [Out.ok] at hp hf
  obtain ⟨e1, e2, e3, e4⟩ := runLoop_log (hp.mrOk hm) hl
  have hlog : j1.log = j.log := by rw [hf]; rfl
  have hlen : j1.logLength = j.logLength := by rw [hf]; rfl
  have hr : rowOf j1 en = rowOf j en := funext fun p => (rowOf_congr hp en p).symm
  exact ⟨N, W, r, m, j1, hw, hN, hW, hg, e3, by rw [e1, ← hr, hlog], by rw [e2, hlen], e4⟩

end Junction
