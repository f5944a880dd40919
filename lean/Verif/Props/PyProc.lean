import Verif.Model.PyProc
import Verif.Spec.PyProc
import Verif.Props.Drivers
import Verif.Props.Runs
import Verif.Props.Logs
import Verif.Props.UnitLength

set_option linter.unusedSectionVars false

/-!
C87 and following: the measurement procedures of `cmtj/utils/procedures.py`.
-/

open Spec

namespace Proc

/-! ### Logs -/

theorem has_iff {T : Type} (L : Log T) (key : String) : L.has key = true ↔ key ∈ L.keys := by
  induction L with
  | nil => simp [Log.has, Log.keys]
  | cons p L ih =>
    obtain ⟨k, v⟩ := p
    simp only [Log.has, Log.keys, List.map_cons, List.mem_cons]
    by_cases h : k = key
    · simp [h]
    · rw [if_neg h, ih]
      simp [Log.keys, Ne.symm h]

theorem lookup_tidy {T : Type} [Scalar T] {L : Log T} (h : L.Tidy) (key : String) :
    lookup L key = if L.col key = [] then .error .keyError else .ok (L.col key) := by
  unfold lookup
  by_cases hc : L.col key = []
  · rw [if_pos hc, if_neg]
    rw [has_iff, ← Log.col_ne_nil h]
    simpa using hc
  · rw [if_neg hc, if_pos]
    rw [has_iff, ← Log.col_ne_nil h]
    exact hc

/-! ### The disturbance -/

theorem normalize_eq (v : CVec ℝ) (h : v.length ≠ 0) : v.normalize = direction v := by
  have h' : v ≠ .zero := fun e => h ((CVec.length_eq_zero v).2 e)
  rw [CVec.normalize_of_ne v h']
  unfold direction
  rw [show v.length = √(v.x ^ 2 + v.y ^ 2 + v.z ^ 2) by simp [CVec.length_eq, CVec.normSq]]

theorem direction_length (v : CVec ℝ) (h : v.length ≠ 0) : (direction v).length = 1 := by
  rw [← normalize_eq v h, CVec.length_eq_one]
  exact CVec.normSq_normalize v fun e => h ((CVec.length_eq_zero v).2 e)

theorem direction_direction (v : CVec ℝ) (h : v.length ≠ 0) : (direction v).normalize = direction v := by
  have h1 := direction_length v h
  have : direction v ≠ .zero := fun e => by rw [(CVec.length_eq_zero _).2 e] at h1; norm_num at h1
  rw [CVec.normalize_of_ne _ this, h1]
  simp

theorem setLoop_fails (e : Err) (id : String) (ls : List (Layer ℝ)) :
    (∃ ls', Junction.setLoop id (fun l => .fail e l) ls = ⟨.error e, ls'⟩) ∨
    (∃ ls', Junction.setLoop id (fun l => .fail e l) ls = ⟨.ok false, ls'⟩) := by
  induction ls with
  | nil => exact .inr ⟨[], rfl⟩
  | cons l ls ih =>
    unfold Junction.setLoop
    by_cases h : l.id = id ∨ id = "all"
    · rw [if_pos h]; exact .inl ⟨_, rfl⟩
    · rw [if_neg h]
      rcases ih with ⟨ls', h'⟩ | ⟨ls', h'⟩
      · rw [h']; exact .inl ⟨_, rfl⟩
      · rw [h']; exact .inr ⟨_, rfl⟩

/-- A zero vector is refused. -/
theorem setMagnetisation_zero (j : Junction ℝ) (id : String) (m : CVec ℝ) (hm : m.length = 0) :
    ∃ e k, j.setLayerMagnetisation id m = .fail e k := by
  unfold Junction.setLayerMagnetisation Junction.layerSetter
  have : (fun l : Layer ℝ => l.setMagnetisation m) = fun l => .fail .zeroMag l := by
    funext l; simp [Layer.setMagnetisation, hm]
  rw [this]
  rcases setLoop_fails .zeroMag id j.layers with ⟨ls', h⟩ | ⟨ls', h⟩
  · rw [h]; exact ⟨_, _, rfl⟩
  · rw [h]; exact ⟨_, _, rfl⟩

/-- One layer of the loop. -/
theorem disturb_cons (noise : ℕ → CVec ℝ) (id : String) (ids : List String) (i : ℕ) (j : Junction ℝ) (l0 : Layer ℝ) (hl : l0 ∈ j.layers)
    (hid : l0.id = id) (hd : DistinctIds j) :
    ((l0.mag + noise i).length = 0 → ∃ e k, disturb noise i (id :: ids) j = .fail e k) ∧
    ((l0.mag + noise i).length ≠ 0 → disturb noise i (id :: ids) j =
      disturb noise (i + 1) ids (mapAddressed id (fun l => { l with mag := direction (l0.mag + noise i) }) j)) := by
  have hg : j.getLayerMagnetisation id = .ok l0.mag := by
    unfold Junction.getLayerMagnetisation Junction.getLayer
    have : j.layers.find? (fun l => l.id == id) = some l0 := by
      rcases hf : j.layers.find? (fun l => l.id == id) with _ | l1
      · rw [List.find?_eq_none] at hf
        exact absurd (by simpa using hid) (hf l0 hl)
      · have h1 := List.mem_of_find?_eq_some hf
        have h2 : l1.id = id := by simpa using List.find?_some hf
        rw [← List.inj_on_of_nodup_map hd h1 hl (by rw [h2, hid])]
        exact hf
    rw [this]
  simp only [disturb, hg]
  constructor
  · intro hz
    have h0 : (l0.mag + noise i).normalize.length = 0 := by
      rw [(CVec.length_eq_zero _).1 hz, CVec.normalize_zero, CVec.length_eq_zero]
    obtain ⟨e, k, h⟩ := setMagnetisation_zero j id _ h0
    rw [h]; exact ⟨e, k, rfl⟩
  · intro hz
    have hn := normalize_eq _ hz
    have h1 := direction_length _ hz
    rw [hn, Junction.C21_magnetisation j id _ ⟨l0, hl, .inl hid⟩ (by simp [h1]), direction_direction _ hz]
    rfl

theorem disturb_spec (noise : ℕ → CVec ℝ) (ids : List String) (i : ℕ) (j k : Junction ℝ) (hn : ids.Nodup) (ha : "all" ∉ ids)
    (hm : ∀ id ∈ ids, id ∈ j.layers.map Layer.id) (hd : DistinctIds j) (h : disturb noise i ids j = .ok () k) :
    k = { j with layers := j.layers.map fun l =>
      if l.id ∈ ids then { l with mag := direction (l.mag + noise (i + ids.idxOf l.id)) } else l } ∧
    ∀ l ∈ j.layers, l.id ∈ ids → (l.mag + noise (i + ids.idxOf l.id)).length ≠ 0 := by
  induction ids generalizing i j with
  | nil =>
    simp only [disturb, Out.ok, Out.mk.injEq, true_and] at h
    subst h
    simp
  | cons id ids ih =>
    obtain ⟨l0, hl, hid⟩ := List.mem_map.1 (hm id (by simp))
    obtain ⟨h1, h2⟩ := disturb_cons noise id ids i j l0 hl hid hd
    have hz : (l0.mag + noise i).length ≠ 0 := fun hz => by
      obtain ⟨e, k', hk⟩ := h1 hz
      rw [hk] at h; simp [Out.ok, Out.fail] at h
    rw [h2 hz] at h
    have hid' : id ≠ "all" := fun e => ha (by simp [e])
    have hni : id ∉ ids := (List.nodup_cons.1 hn).1
    have hids : (mapAddressed id (fun l => { l with mag := direction (l0.mag + noise i) }) j).layers.map Layer.id = j.layers.map Layer.id := by
      simp only [mapAddressed, List.map_map]
      refine List.map_congr_left fun l _ => ?_
      simp only [Function.comp]
      split <;> rfl
    obtain ⟨h3, h4⟩ := ih (i + 1) _ (List.nodup_cons.1 hn).2 (fun q => ha (by simp [q])) (fun x hx => by
        rw [hids]; exact hm x (List.mem_cons_of_mem _ hx)) (by unfold DistinctIds; rw [hids]; exact hd) h
    have key : ∀ l ∈ j.layers, l.id = id → l = l0 := fun l hl' he => List.inj_on_of_nodup_map hd hl' hl (by rw [he, hid])
    constructor
    · rw [h3]
      simp only [mapAddressed, List.map_map]
      congr 1
      refine List.map_congr_left fun l hl' => ?_
      simp only [Function.comp, Addressed, hid', or_false]
      by_cases he : l.id = id
      · have := key l hl' he
        subst this
        simp [he, hni]
      · rw [if_neg he]
        have he' : id ≠ l.id := fun e => he e.symm
        by_cases hx : l.id ∈ ids
        · rw [if_pos hx, if_pos (List.mem_cons_of_mem _ hx), List.idxOf_cons_ne _ he', show i + 1 + ids.idxOf l.id = i + (ids.idxOf l.id + 1) by omega]
        · rw [if_neg hx, if_neg (by simp [hx, he])]
    · intro l hl' hx
      by_cases he : l.id = id
      · have := key l hl' he
        subst this
        rw [he, List.idxOf_cons_self]
        exact hz
      · have he' : id ≠ l.id := fun e => he e.symm
        have hx' : l.id ∈ ids := by simpa [he] using hx
        have := h4 l (by
          simp only [mapAddressed, List.mem_map]
          exact ⟨l, hl', by simp [Addressed, he, hid']⟩) hx'
        rwa [List.idxOf_cons_ne _ he', show i + (ids.idxOf l.id + 1) = i + 1 + ids.idxOf l.id by omega]

/-- A disturbance is possible unless it cancels a magnetisation. -/
theorem disturb_ok (noise : ℕ → CVec ℝ) (ids : List String) (i : ℕ) (j : Junction ℝ) (hn : ids.Nodup) (ha : "all" ∉ ids)
    (hm : ∀ id ∈ ids, id ∈ j.layers.map Layer.id) (hd : DistinctIds j)
    (h : ∀ l ∈ j.layers, l.id ∈ ids → (l.mag + noise (i + ids.idxOf l.id)).length ≠ 0) :
    ∃ k, disturb noise i ids j = .ok () k := by
  induction ids generalizing i j with
  | nil => exact ⟨j, rfl⟩
  | cons id ids ih =>
    obtain ⟨l0, hl, hid⟩ := List.mem_map.1 (hm id (by simp))
    obtain ⟨-, h2⟩ := disturb_cons noise id ids i j l0 hl hid hd
    have h0 := h l0 hl (by simp [hid])
    rw [hid, List.idxOf_cons_self] at h0
    rw [h2 h0]
    have hid' : id ≠ "all" := fun e => ha (by simp [e])
    have hni : id ∉ ids := (List.nodup_cons.1 hn).1
    have hids : (mapAddressed id (fun l => { l with mag := direction (l0.mag + noise i) }) j).layers.map Layer.id = j.layers.map Layer.id := by
      simp only [mapAddressed, List.map_map]
      refine List.map_congr_left fun l _ => ?_
      simp only [Function.comp]
      split <;> rfl
    refine ih (i + 1) _ (List.nodup_cons.1 hn).2 (fun q => ha (by simp [q])) (fun x hx => by
        rw [hids]; exact hm x (List.mem_cons_of_mem _ hx)) (by unfold DistinctIds; rw [hids]; exact hd) fun l hl' hx => ?_
    simp only [mapAddressed, List.mem_map] at hl'
    obtain ⟨l', hl', rfl⟩ := hl'
    by_cases he : l'.id = id
    · exact absurd (by simpa [Addressed, he] using hx) hni
    · have he' : id ≠ l'.id := fun e => he e.symm
      simp only [Addressed, he, hid', or_self, if_false] at hx ⊢
      have := h l' hl' (List.mem_cons_of_mem _ hx)
      rwa [List.idxOf_cons_ne _ he', show i + (ids.idxOf l'.id + 1) = i + 1 + ids.idxOf l'.id by omega] at this

/-! ### Reachability -/

theorem reach_call {T : Type} [Scalar T] {j : Junction T} (h : Reachable j) (c : Call T) : Reachable (c.exec j).st := by
  obtain ⟨j0, cs, h0, rfl⟩ := h
  exact ⟨j0, cs ++ [c], h0, by simp [program]⟩

theorem reach_disturb {T : Type} [Scalar T] (noise : ℕ → CVec T) (ids : List String) (i : ℕ) {j : Junction T} (h : Reachable j) :
    Reachable (disturb noise i ids j).st := by
  induction ids generalizing i j with
  | nil => exact h
  | cons id ids ih =>
    simp only [disturb]
    split
    · exact h
    · have h1 := reach_call h (.magnetisation id (‹CVec T› + noise i).normalize)
      simp only [Call.exec] at h1
      generalize j.setLayerMagnetisation id (‹CVec T› + noise i).normalize = x at h1
      rcases x with ⟨_ | _, k⟩
      · exact h1
      · exact ih (i + 1) h1

/-! ### A measurement -/

theorem setAll {T : Type} [Scalar T] (j : Junction T) (hne : j.layers ≠ []) :
    (∀ d, j.setLayerExternalFieldDriver "all" d = .ok () { j with layers := j.layers.map fun l => { l with externalFieldDriver := d } }) ∧
    (∀ d, j.setLayerOerstedFieldDriver "all" d = .ok () { j with layers := j.layers.map fun l => { l with HoeDriver := d } }) := by
  obtain ⟨l, hl⟩ := List.exists_mem_of_ne_nil _ hne
  have h := Junction.C21_setters j "all" ⟨l, hl, .inr rfl⟩
  refine ⟨fun d => ?_, fun d => ?_⟩
  · rw [h.2.2.2.1 d]; simp [mapAddressed, Addressed]
  · rw [h.2.2.2.2.1 d]; simp [mapAddressed, Addressed]

/-- The junction before the disturbance. -/
noncomputable def primed (j : Junction ℝ) (H : CVec ℝ) (oe : AxialDriver ℝ) : Junction ℝ :=
  { j with log := [], logLength := 0
           layers := j.layers.map fun l => { l with externalFieldDriver := constantField H, HoeDriver := oe } }

theorem measure_eq (j : Junction ℝ) (hne : j.layers ≠ []) (ids : List String) (H : CVec ℝ) (oe : AxialDriver ℝ) (ε : ℝ)
    (noise : ℕ → CVec ℝ) (T dt : ℝ) :
    measure j ids H oe ε noise T dt =
      (if ε = 0 then .ok () (primed j H oe) else disturb noise 0 ids (primed j H oe)).bind fun _ s => s.runSimulation T dt dt false .RK4 := by
  unfold measure
  have h1 : j.clearLog.layers ≠ [] := hne
  rw [(setAll _ h1).1, Out.bind_ok, (setAll _ (by simpa [Junction.clearLog] using hne)).2, Out.bind_ok]
  simp only [Scalar.eqb_real, Scalar.ofNat_real, Nat.cast_zero, decide_eq_true_eq]
  simp only [Junction.clearLog, List.map_map]
  rfl

theorem reach_primed {j : Junction ℝ} (h : Reachable j) (H : CVec ℝ) (oe : AxialDriver ℝ) : Reachable (primed j H oe) := by
  have hne := Junction.reachable_nonempty h
  have h1 := reach_call h .clearLog
  have h2 := reach_call h1 (.externalField "all" (constantField H))
  have h3 := reach_call h2 (.oersted "all" oe)
  simp only [Call.exec, Out.ok] at h1 h2 h3
  rw [(setAll j.clearLog hne).1] at h3
  dsimp only [Out.ok] at h3
  rw [(setAll _ (by simpa [Junction.clearLog] using hne)).2] at h3
  simpa [primed, Junction.clearLog, List.map_map, Function.comp_def] using h3

theorem primed_ids (j : Junction ℝ) (H : CVec ℝ) (oe : AxialDriver ℝ) : (primed j H oe).layers.map Layer.id = j.layers.map Layer.id := by
  simp [primed, Function.comp_def]

/-- The start of a measurement as the specification has it. -/
theorem prepared_eq (j : Junction ℝ) (hd : DistinctIds j) (H : CVec ℝ) (oe : AxialDriver ℝ) (ε : ℝ) (noise : ℕ → CVec ℝ) :
    prepared j H oe (fun q l => kicked ε (noise q) l) =
      if ε = 0 then primed j H oe else
        { primed j H oe with layers := (primed j H oe).layers.map fun l =>
          if l.id ∈ j.layers.map Layer.id then { l with mag := direction (l.mag + noise (0 + (j.layers.map Layer.id).idxOf l.id)) } else l } := by
  have hq : ∀ q (h : q < j.layers.length), (j.layers.map Layer.id).idxOf j.layers[q].id = q := fun q h => by
    have := hd.idxOf_getElem q (by simpa using h)
    simpa using this
  split
  · rename_i h
    subst h
    unfold prepared primed
    congr 1
    apply List.ext_getElem (by simp)
    intro q h1 h2
    simp [kicked]
  · rename_i h
    unfold prepared primed
    congr 1
    apply List.ext_getElem (by simp)
    intro q h1 h2
    have hl : q < j.layers.length := by simpa using h1
    have hm : j.layers[q].id ∈ j.layers.map Layer.id := List.mem_map.2 ⟨_, List.getElem_mem hl, rfl⟩
    simp only [List.getElem_mapIdx, List.getElem_map, hm, if_true, kicked, h, if_false, hq q hl, Nat.zero_add]
    rfl

/-- C87: what happens to the junction in one measurement. -/
theorem measure_spec {j k : Junction ℝ} (hr : Reachable j) (hd : DistinctIds j) (hall : ∀ l ∈ j.layers, l.id ≠ "all") {H : CVec ℝ}
    {oe : AxialDriver ℝ} {ε : ℝ} {noise : ℕ → CVec ℝ} {T dt : ℝ}
    (h : measure j (j.layers.map Layer.id) H oe ε noise T dt = .ok () k) :
    (prepared j H oe (fun q l => kicked ε (noise q) l)).runSimulation T dt dt false .RK4 = .ok () k ∧
    Reachable (prepared j H oe (fun q l => kicked ε (noise q) l)) := by
  have hne := Junction.reachable_nonempty hr
  rw [measure_eq j hne] at h
  have hrp := reach_primed hr H oe
  rw [prepared_eq j hd]
  by_cases hε : ε = 0
  · rw [if_pos hε] at h ⊢
    exact ⟨h, hrp⟩
  · rw [if_neg hε] at h ⊢
    rcases hx : disturb noise 0 (j.layers.map Layer.id) (primed j H oe) with ⟨_ | _, s⟩
    · rw [hx] at h; simp [Out.bind, Out.ok] at h
    · have hs := disturb_spec noise _ 0 _ s hd (by simpa using hall) (by rw [primed_ids]; exact fun _ h => h)
        (by unfold DistinctIds; rw [primed_ids]; exact hd) hx
      have hrs := reach_disturb noise (j.layers.map Layer.id) 0 hrp
      rw [hx] at h hrs
      rw [← hs.1]
      exact ⟨h, hrs⟩

/-! ### The data of a run -/

theorem sampleSteps_one (N : ℕ) : sampleSteps N 1 = List.range N := by
  simp [sampleSteps]

/-- What is in the log after a run that started with an empty log and logs every step. -/
theorem run_data {s k : Junction ℝ} (hr : Reachable s) (hd : DistinctIds s) (hlog : s.log = []) {T dt : ℝ} (hdt : 0 < dt) (hT : 0 ≤ T)
    (hb : T / dt < 2 ^ 32) (h : s.runSimulation T dt dt false .RK4 = .ok () k) :
    ∃ M, Trajectory s k dt ⌊T / dt⌋₊ M ∧ k.log.Tidy ∧ k.log.col "time" = (List.range ⌊T / dt⌋₊).map (fun i : ℕ => (i : ℝ) * dt) ∧
      ∀ q l, s.layers[q]? = some l →
        k.log.col (l.id ++ "_mx") = (List.range ⌊T / dt⌋₊).map (fun i => (M (i + 1) q).x) ∧
        k.log.col (l.id ++ "_my") = (List.range ⌊T / dt⌋₊).map (fun i => (M (i + 1) q).y) ∧
        k.log.col (l.id ++ "_mz") = (List.range ⌊T / dt⌋₊).map (fun i => (M (i + 1) q).z) := by
  obtain ⟨N, W, r, m, j1, hN, hW, hg, -, hres, hlay, -, htime, hcols⟩ := Junction.C27_run hr hd h
  have hW1 : Scalar.toUInt (dt / dt) = some 1 := by
    rw [div_self hdt.ne', Junction.toUInt_floor 1 (by norm_num) (by norm_num)]
    simp
  have hN1 := Junction.toUInt_floor (T / dt) (div_nonneg hT hdt.le) (by norm_num at hb ⊢; exact hb)
  rw [hN1] at hN
  cases hN
  rw [hW1] at hW
  cases hW
  obtain ⟨hm, -⟩ := Junction.Reachable_inv hr
  have htidy : k.log.Tidy := by
    obtain ⟨N', W', r', m', j1', -, -, -, -, -, hl, -⟩ := Junction.runSimulation_log hm h
    rw [hl, hlog]
    exact Log.tidy_pushAll Junction.tidy_nil _
  refine ⟨fun n q => magOf (steps r dt 0 n j1).st.layers q, ⟨r, m, j1, hg, hres, hlay, fun _ _ => rfl⟩, htidy, ?_, ?_⟩
  · rw [htime, hlog, sampleSteps_one]
    simp [Log.col]
  · intro q l hl
    obtain ⟨h1, h2, h3⟩ := hcols q l hl
    rw [h1, h2, h3, hlog, sampleSteps_one]
    simp [Log.col]

/-- What never changes in a layer. -/
def rigid (l : Layer ℝ) : String × ℝ × ℝ := (l.id, l.thickness, l.Ms)

theorem same_rigid {ls ls' : List (Layer ℝ)} (h : List.Forall₂ Layer.Same ls ls') : ls'.map rigid = ls.map rigid := by
  induction h with
  | nil => rfl
  | cons hab _ ih =>
    obtain ⟨m, c, g, b, n, rfl⟩ := hab
    simp [rigid, ih]

theorem prepared_rigid (j : Junction ℝ) (H : CVec ℝ) (oe : AxialDriver ℝ) (m : ℕ → Layer ℝ → CVec ℝ) :
    (prepared j H oe m).layers.map rigid = j.layers.map rigid := by
  apply List.ext_getElem (by simp [prepared])
  intro q h1 h2
  simp [prepared, rigid]

theorem ids_of_rigid {ls ls' : List (Layer ℝ)} (h : ls'.map rigid = ls.map rigid) : ls'.map Layer.id = ls.map Layer.id := by
  have := congrArg (List.map Prod.fst) h
  simpa [List.map_map, Function.comp_def, rigid] using this

theorem weights_of_rigid {ls ls' : List (Layer ℝ)} (h : ls'.map rigid = ls.map rigid) :
    ls'.map (fun l => l.thickness * l.Ms) = ls.map (fun l => l.thickness * l.Ms) := by
  have := congrArg (List.map fun p : String × ℝ × ℝ => p.2.1 * p.2.2) h
  simpa [List.map_map, Function.comp_def, rigid] using this

theorem weightSum_eq (j : Junction ℝ) : weightSum j = (j.layers.map fun l => l.thickness * l.Ms).sum := by
  unfold weightSum
  rw [List.sum_eq_foldl]
  simp

/-! ### Reading out -/

theorem collect_ok {α β : Type} (f : α → Except Err β) (ls : List α) (g : ℕ → α → β) (h : ∀ q l, ls[q]? = some l → f l = .ok (g q l)) :
    collect f ls = .ok (ls.mapIdx g) := by
  induction ls generalizing g with
  | nil => rfl
  | cons a ls ih =>
    have h0 := h 0 a rfl
    have h1 := ih (fun q l => g (q + 1) l) (fun q l hl => h (q + 1) l (by simpa using hl))
    simp only [collect, h0, h1, List.mapIdx_cons]

theorem asArray_ok {α β : Type} (ls : List α) (g : ℕ → α → List β) (n : ℕ) (h : ∀ q l, (g q l).length = n) :
    asArray (ls.mapIdx g) = .ok (ls.mapIdx g) := by
  cases ls with
  | nil => rfl
  | cons a ls =>
    rw [List.mapIdx_cons]
    unfold asArray
    dsimp only
    rw [if_pos]
    rw [List.all_eq_true]
    intro r hr
    obtain ⟨q, hq, rfl⟩ := List.getElem_of_mem hr
    simp [h]

theorem lookup_ok {L : Log ℝ} (h : L.Tidy) {key : String} {n : ℕ} {f : ℕ → ℝ} (hn : 0 < n) (hc : L.col key = (List.range n).map f) :
    lookup L key = .ok ((List.range n).map f) := by
  rw [lookup_tidy h, hc, if_neg (by simp; omega)]

theorem zip3 (n : ℕ) (v : ℕ → CVec ℝ) :
    List.zipWith (fun x (p : ℝ × ℝ) => (⟨x, p.1, p.2⟩ : CVec ℝ)) ((List.range n).map fun i => (v i).x)
      (((List.range n).map fun i => (v i).y).zip ((List.range n).map fun i => (v i).z)) = (List.range n).map v := by
  apply List.ext_getElem (by simp)
  intro i h1 h2
  simp

theorem layerColumns_ok {L : Log ℝ} (h : L.Tidy) {id : String} {n : ℕ} {v : ℕ → CVec ℝ} (hn : 0 < n)
    (hx : L.col (id ++ "_mx") = (List.range n).map fun i => (v i).x) (hy : L.col (id ++ "_my") = (List.range n).map fun i => (v i).y)
    (hz : L.col (id ++ "_mz") = (List.range n).map fun i => (v i).z) : Proc.layerColumns L id = .ok ((List.range n).map v) := by
  unfold Proc.layerColumns
  rw [lookup_ok h hn hx, lookup_ok h hn hy, lookup_ok h hn hz]
  dsimp only
  rw [if_pos (by simp), zip3]

/-- Everything the read-out uses: what is known of the junction after a measurement. -/
structure Data (k : Junction ℝ) (dt : ℝ) (N : ℕ) (M : ℕ → ℕ → CVec ℝ) : Prop where
  tidy : k.log.Tidy
  time : k.log.col "time" = (List.range N).map (fun i : ℕ => (i : ℝ) * dt)
  cols : ∀ q l, k.layers[q]? = some l → k.log.col (l.id ++ "_mx") = (List.range N).map (fun i => (M (i + 1) q).x) ∧
        k.log.col (l.id ++ "_my") = (List.range N).map (fun i => (M (i + 1) q).y) ∧
        k.log.col (l.id ++ "_mz") = (List.range N).map (fun i => (M (i + 1) q).z)
  last : ∀ q l, k.layers[q]? = some l → M N q = l.mag

theorem weigh_eq (ls : List (Layer ℝ)) (l : Layer ℝ) (x : ℝ) :
    weigh ((ls.map fun l => l.thickness * l.Ms).sum) l x = share ls l * x := by
  unfold weigh share
  ring

theorem trajectories_ok {k : Junction ℝ} {dt : ℝ} {N : ℕ} {M : ℕ → ℕ → CVec ℝ} (h : Data k dt N M) (hN : 0 < N) :
    trajectories (weightSum k) k = .ok (sharedSamples k.layers N M) := by
  unfold trajectories sharedSamples
  rw [weightSum_eq, collect_ok _ k.layers (fun q l => (List.range N).map fun i => times (share k.layers l) (M (i + 1) q))]
  · exact asArray_ok _ _ N (by simp)
  · intro q l hl
    obtain ⟨h1, h2, h3⟩ := h.cols q l hl
    rw [layerColumns_ok h.tidy hN h1 h2 h3]
    simp only [weigh_eq, List.map_map]
    rfl

/-- The weighted component of layer `q` at the samples `is`. -/
theorem mixed_ok {k : Junction ℝ} {dt : ℝ} {N : ℕ} {M : ℕ → ℕ → CVec ℝ} (h : Data k dt N M) (hN : 0 < N) (axis : Axis) (is : List ℕ)
    (hi : ∀ i ∈ is, i < N) :
    mixed (weightSum k) k axis is =
      .ok (k.layers.mapIdx fun q l => is.map fun i => share k.layers l * along axis (M (i + 1) q)) := by
  unfold mixed
  rw [weightSum_eq, collect_ok _ k.layers (fun q l => is.map fun i => share k.layers l * along axis (M (i + 1) q))]
  · exact asArray_ok _ _ is.length (by simp)
  · intro q l hl
    have hc : k.log.col (l.id ++ "_m" ++ letter axis) = (List.range N).map fun i => along axis (M (i + 1) q) := by
      obtain ⟨h1, h2, h3⟩ := h.cols q l hl
      have e : ∀ a, l.id ++ "_m" ++ a = l.id ++ ("_m" ++ a) := fun a => String.append_assoc
      rw [e]
      cases axis
      · exact h1
      · exact h2
      · exact h3
      · exact h1
      · exact h1
    rw [lookup_ok h.tidy hN hc]
    have hp : pick ((List.range N).map fun i => along axis (M (i + 1) q)) is = .ok (is.map fun i => along axis (M (i + 1) q)) := by
      unfold pick
      rw [collect_ok _ is (fun _ i => along axis (M (i + 1) q))]
      · congr 1
        apply List.ext_getElem (by simp)
        intro p h1 h2
        simp
      · intro p i hp
        have := hi i (List.mem_of_getElem? hp)
        simp [this]
    dsimp only
    rw [hp]
    simp only [List.map_map, Function.comp_def, weigh_eq]

theorem sumCols_map (is : List ℕ) (f : ℕ → ℝ) (fs : List (ℕ → ℝ)) :
    sumCols ((f :: fs).map fun g => is.map g) = is.map fun i => ((f :: fs).map (· i)).sum := by
  simp only [List.map_cons, sumCols]
  induction fs generalizing f with
  | nil => simp
  | cons g fs ih =>
    have e : List.zipWith (· + ·) (is.map f) (is.map g) = is.map fun i => f i + g i := by
      rw [List.zipWith_map, List.zipWith_self]
    simp only [List.map_cons, List.foldl_cons, e]
    rw [ih]
    simp [add_assoc]

theorem kept_eq (N : ℕ) (dt wait : ℝ) : kept ((List.range N).map fun i : ℕ => (i : ℝ) * dt) wait = keptSteps N dt wait := by
  unfold kept keptSteps
  simp only [List.length_map, List.length_range]
  refine List.filter_congr fun i hi => ?_
  have : i < N := by simpa using hi
  simp [this]

/-- The frequencies `compute_spectrum_strip` works with. -/
def gridOf {T : Type} [Scalar T] (n : ℕ) (dt : T) : List T :=
  (List.range (n / 2)).map fun k : ℕ => Scalar.lit (k : ℚ) * (1.0 / (Scalar.lit (n : ℚ) * dt))

/-- The positions it keeps. -/
def findxOf {T : Type} [Scalar T] (n : ℕ) (dt fmax : T) : List ℕ :=
  (List.range (n / 2)).filter fun k => Scalar.leb ((gridOf n dt).getD k 0) fmax

theorem strip_unfold {T : Type} [Scalar T] [DecidableEq T] (f : List T → List T) (x : List T) (hx : x ≠ []) (dt fmax : T) :
    spectrumStrip f x dt fmax = .ok ((findxOf x.length dt fmax).map (((f x).take (x.length / 2)).getD · 0),
      (findxOf x.length dt fmax).map ((gridOf x.length dt).getD · 0)) := by
  unfold spectrumStrip
  rw [if_neg hx]
  rfl

theorem gridOf_get (n k : ℕ) (dt : ℝ) (h : k < n / 2) (z : ℝ) : (gridOf n dt).getD k z = (k : ℝ) / (n * dt) := by
  simp [gridOf, h, div_eq_mul_inv]

theorem findxOf_eq (n : ℕ) (dt fmax : ℝ) : findxOf n dt fmax = bins n dt fmax := by
  unfold findxOf bins
  refine List.filter_congr fun k hk => ?_
  rw [gridOf_get n k dt (by simpa using hk)]
  simp

theorem strip_eq (x : List ℝ) (hx : x ≠ []) (dt fmax : ℝ) :
    spectrumStrip absDft x dt fmax = .ok ((bins x.length dt fmax).map (amplitude x),
      (bins x.length dt fmax).map fun k : ℕ => (k : ℝ) / (x.length * dt)) := by
  rw [strip_unfold _ _ hx, findxOf_eq]
  have hlt : ∀ k ∈ bins x.length dt fmax, k < x.length / 2 := fun k hk => by
    have := (List.mem_filter.1 hk).1
    simpa using this
  congr 2
  · refine List.map_congr_left fun k hk => ?_
    have h1 := hlt k hk
    have h2 : k < x.length := by omega
    simp [List.getD_eq_getElem?_getD, h1, absDft, h2, amplitude]
  · exact List.map_congr_left fun k hk => gridOf_get _ _ _ (hlt k hk) _

theorem sumVecs (vs : List (CVec ℝ)) (u : CVec ℝ) :
    vs.foldl (· + ·) u = ⟨u.x + (vs.map CVec.x).sum, u.y + (vs.map CVec.y).sum, u.z + (vs.map CVec.z).sum⟩ := by
  induction vs generalizing u with
  | nil => simp
  | cons v vs ih =>
    rw [List.foldl_cons, ih]
    change (⟨u.x + v.x + _, u.y + v.y + _, u.z + v.z + _⟩ : CVec ℝ) = _
    simp [add_assoc]

theorem lastSum_ok {k : Junction ℝ} {dt : ℝ} {N : ℕ} {M : ℕ → ℕ → CVec ℝ} (h : Data k dt N M) (hN : 0 < N) :
    lastSum (sharedSamples k.layers N M) = .ok (averageMag k.layers) := by
  unfold lastSum
  have e : collect lastOf (sharedSamples k.layers N M) = .ok (k.layers.map fun l => times (share k.layers l) l.mag) := by
    rw [collect_ok _ _ (fun _ vs => vs.getLast?.getD ⟨0, 0, 0⟩)]
    · congr 1
      apply List.ext_getElem (by simp [sharedSamples])
      intro q h1 h2
      have hl : q < k.layers.length := by simpa using h2
      have hm := h.last q k.layers[q] (List.getElem?_eq_getElem hl)
      obtain ⟨n, rfl⟩ : ∃ n, N = n + 1 := ⟨N - 1, by omega⟩
      simp [sharedSamples, List.range_succ, hm]
    · intro q vs hq
      obtain ⟨n, rfl⟩ : ∃ n, N = n + 1 := ⟨N - 1, by omega⟩
      simp only [sharedSamples, List.getElem?_mapIdx, Option.map_eq_some_iff] at hq
      obtain ⟨l, -, rfl⟩ := hq
      simp [lastOf, List.range_succ]
  rw [e]
  dsimp only
  rw [sumVecs]
  simp [averageMag, times, Function.comp_def]

/-- The read-out, as an equation. -/
theorem readOut_eq {k : Junction ℝ} {dt : ℝ} {N : ℕ} {M : ℕ → ℕ → CVec ℝ} (h : Data k dt N M) (hN : 0 < N) (hk : k.layers ≠ [])
    (a : PimmArgs ℝ) (ha : a.dt = dt) (H : CVec ℝ) :
    readOut absDft a (weightSum k) k H =
      match resistances a.resFn a.params ((sharedSamples k.layers N M).map (lastN a.takeLast)) with
      | .error e => .error e
      | .ok (Rx, Ry) =>
        if a.static then .ok (⟨H, Rx, Ry, averageMag k.layers, [], [], []⟩, none)
        else if keptSteps N dt a.wait = [] then .error .valueError
        else .ok (⟨H, Rx, Ry, averageMag k.layers, spectrumOf (signal a.axis k.layers M (keptSteps N dt a.wait)) dt a.maxFrequency,
            if a.full then sharedSamples k.layers N M else [],
            if a.full then (layerSignals a.axis k.layers M (keptSteps N dt a.wait)).map fun x => spectrumOf x dt a.maxFrequency else []⟩,
          some (freqsOf (keptSteps N dt a.wait).length dt a.maxFrequency)) := by
  subst ha
  unfold readOut
  rw [lookup_ok h.tidy hN h.time, trajectories_ok h hN]
  dsimp only
  rcases resistances a.resFn a.params ((sharedSamples k.layers N M).map (lastN a.takeLast)) with e | ⟨Rx, Ry⟩
  · rfl
  · rw [lastSum_ok h hN, kept_eq]
    dsimp only
    split
    · rfl
    · have hmix := mixed_ok h hN a.axis (keptSteps N a.dt a.wait) (fun i hi => by simpa using (List.mem_filter.1 hi).1)
      have hsum : sumCols (k.layers.mapIdx fun q l => (keptSteps N a.dt a.wait).map fun i => share k.layers l * along a.axis (M (i + 1) q)) =
          signal a.axis k.layers M (keptSteps N a.dt a.wait) := by
        obtain ⟨f, fs, hf⟩ : ∃ f fs, (k.layers.mapIdx fun q l => fun i => share k.layers l * along a.axis (M (i + 1) q)) = f :: fs := by
          cases hks : k.layers.mapIdx fun q l => fun i => share k.layers l * along a.axis (M (i + 1) q) with
          | nil => simp [hk] at hks
          | cons f fs => exact ⟨f, fs, rfl⟩
        have e1 : (k.layers.mapIdx fun q l => (keptSteps N a.dt a.wait).map fun i => share k.layers l * along a.axis (M (i + 1) q)) =
            (f :: fs).map fun g => (keptSteps N a.dt a.wait).map g := by
          rw [← hf]
          apply List.ext_getElem (by simp)
          intro q h1 h2
          simp
        rw [e1, sumCols_map, ← hf]
        unfold signal
        refine List.map_congr_left fun i _ => ?_
        congr 1
        apply List.ext_getElem (by simp)
        intro q h1 h2
        simp
      unfold spectra
      rw [hmix]
      dsimp only
      rw [hsum]
      by_cases he : keptSteps N a.dt a.wait = []
      · rw [he]
        simp [signal, spectrumStrip]
      · rw [if_neg he]
        have hlen : (signal a.axis k.layers M (keptSteps N a.dt a.wait)).length = (keptSteps N a.dt a.wait).length := by simp [signal]
        rw [strip_eq _ (by intro h0; rw [h0] at hlen; exact he (List.length_eq_zero_iff.1 hlen.symm))]
        dsimp only
        cases hf : a.full
        · simp [spectrumOf, freqsOf, hlen]
        · simp only [if_true]
          rw [collect_ok _ _ (fun _ x => spectrumOf x a.dt a.maxFrequency)]
          · have e : (k.layers.mapIdx fun q l => (keptSteps N a.dt a.wait).map fun i => share k.layers l * along a.axis (M (i + 1) q)).mapIdx
                (fun _ x => spectrumOf x a.dt a.maxFrequency) =
                (layerSignals a.axis k.layers M (keptSteps N a.dt a.wait)).map fun x => spectrumOf x a.dt a.maxFrequency := by
              apply List.ext_getElem (by simp [layerSignals])
              intro q h1 h2
              simp [layerSignals]
            rw [e]
            simp [spectrumOf, freqsOf, hlen]
          · intro q x hx
            have hx' : x ≠ [] := by
              simp only [List.getElem?_mapIdx, Option.map_eq_some_iff] at hx
              obtain ⟨l, -, rfl⟩ := hx
              simpa using he
            rw [strip_eq x hx']
            rfl

/-- Without a sample there is no column to read. -/
theorem readOut_empty {k : Junction ℝ} {dt : ℝ} {M : ℕ → ℕ → CVec ℝ} (h : Data k dt 0 M) (a : PimmArgs ℝ) (H : CVec ℝ) :
    readOut absDft a (weightSum k) k H = .error .keyError := by
  unfold readOut
  rw [lookup_tidy h.tidy, if_pos (by simp [h.time])]

/-! ### The scan -/

/-- What a scan keeps. -/
structure Scanned (j0 j : Junction ℝ) : Prop where
  reach : Reachable j
  rigid : j.layers.map rigid = j0.layers.map rigid
  params : j0.SameParams j

theorem Scanned.refl {j : Junction ℝ} (h : Reachable j) : Scanned j j := ⟨h, rfl, .refl j⟩

theorem Scanned.ids {j0 j : Junction ℝ} (h : Scanned j0 j) : j.layers.map Layer.id = j0.layers.map Layer.id := ids_of_rigid h.rigid

theorem Scanned.weight {j0 j : Junction ℝ} (h : Scanned j0 j) : weightSum j = weightSum j0 := by
  rw [weightSum_eq, weightSum_eq, weights_of_rigid h.rigid]

theorem Scanned.distinct {j0 j : Junction ℝ} (h : Scanned j0 j) (hd : DistinctIds j0) : DistinctIds j := by
  unfold DistinctIds; rw [h.ids]; exact hd

theorem Scanned.notAll {j0 j : Junction ℝ} (h : Scanned j0 j) (hall : ∀ l ∈ j0.layers, l.id ≠ "all") : ∀ l ∈ j.layers, l.id ≠ "all" := by
  have h1 : ∀ i ∈ j0.layers.map Layer.id, i ≠ "all" := by simpa using hall
  rw [← h.ids] at h1
  simpa using h1

/-- One measurement: the state it starts from, the trajectory, and the data in the log. -/
theorem measure_data {j0 j k : Junction ℝ} (hs : Scanned j0 j) (hd : DistinctIds j0) (hall : ∀ l ∈ j0.layers, l.id ≠ "all") {H : CVec ℝ}
    {oe : AxialDriver ℝ} {ε : ℝ} {noise : ℕ → CVec ℝ} {T dt : ℝ} (hdt : 0 < dt) (hT : 0 ≤ T) (hb : T / dt < 2 ^ 32)
    (h : measure j (j0.layers.map Layer.id) H oe ε noise T dt = .ok () k) :
    Scanned j0 k ∧ ∃ M, Trajectory (prepared j H oe (fun q l => kicked ε (noise q) l)) k dt ⌊T / dt⌋₊ M ∧ Data k dt ⌊T / dt⌋₊ M := by
  rw [← hs.ids] at h
  obtain ⟨hrun, hrs⟩ := measure_spec hs.reach (hs.distinct hd) (hs.notAll hall) h
  have hsame := Junction.runSimulation_same (prepared j H oe (fun q l => kicked ε (noise q) l)) T dt dt false .RK4
  rw [hrun] at hsame
  have hk : k.layers.map Proc.rigid = (prepared j H oe (fun q l => kicked ε (noise q) l)).layers.map Proc.rigid := same_rigid hsame
  have hkr : Reachable k := by
    have := reach_call hrs (.run T dt dt false .RK4)
    simp only [Call.exec, hrun] at this
    exact this
  have hrig := hk.trans (prepared_rigid _ _ _ _)
  have hds : DistinctIds (prepared j H oe (fun q l => kicked ε (noise q) l)) := by
    unfold DistinctIds
    rw [ids_of_rigid (prepared_rigid j H oe _)]
    exact hs.distinct hd
  obtain ⟨M, hM, htidy, htime, hcols⟩ := run_data hrs hds rfl hdt hT hb hrun
  have hpar : j.SameParams k := by
    have h1 : j.SameParams (prepared j H oe (fun q l => kicked ε (noise q) l)) :=
      ⟨rfl, rfl, rfl, rfl, rfl, rfl, rfl, rfl, rfl, rfl, rfl, by simp [prepared]⟩
    have h2 := Junction.Call.params (prepared j H oe (fun q l => kicked ε (noise q) l)) (.run T dt dt false .RK4)
    simp only [Call.exec, hrun] at h2
    exact h1.trans h2
  refine ⟨⟨hkr, hrig.trans hs.rigid, hs.params.trans hpar⟩, M, hM, htidy, htime, ?_, ?_⟩
  · intro q l hl
    have hid : (prepared j H oe (fun q l => kicked ε (noise q) l)).layers[q]?.map Layer.id = some l.id := by
      have := congrArg (·[q]?) (ids_of_rigid hk)
      simp only [List.getElem?_map, hl, Option.map_some] at this
      exact this.symm
    obtain ⟨l', hl', hid'⟩ := Option.map_eq_some_iff.1 hid
    rw [← hid']
    exact hcols q l' hl'
  · intro q l hl
    obtain ⟨r, m, s1, -, -, hlay, hM⟩ := hM
    rw [hM, ← hlay, magOf, hl]

/-- The junctions between the measurements of a scan. -/
theorem pimmLoop_spec {j0 : Junction ℝ} (hd : DistinctIds j0) (hall : ∀ l ∈ j0.layers, l.id ≠ "all") (a : PimmArgs ℝ) (hdt : 0 < a.dt)
    (hT : 0 ≤ a.duration) (hb : a.duration / a.dt < 2 ^ 32) (oe : AxialDriver ℝ) (noise : ℕ → ℕ → CVec ℝ) (Hs : List (CVec ℝ)) (n : ℕ)
    (f0 : Option (List ℝ)) (j k : Junction ℝ) (hs : Scanned j0 j) (rows : List (PimmRow ℝ)) (f : Option (List ℝ))
    (h : pimmLoop absDft a (j0.layers.map Layer.id) (weightSum j0) oe noise n Hs f0 j = .ok (rows, f) k) :
    rows.length = Hs.length ∧ ∃ J : ℕ → Junction ℝ, J 0 = j ∧ J Hs.length = k ∧
      (∀ i, i ≤ Hs.length → Scanned j0 (J i)) ∧
      ∀ i H row, Hs[i]? = some H → rows[i]? = some row →
        measure (J i) (j0.layers.map Layer.id) H oe a.disturbance (noise (n + i)) a.duration a.dt = .ok () (J (i + 1)) ∧
        ∃ g, readOut absDft a (weightSum j0) (J (i + 1)) H = .ok (row, g) ∧ (i + 1 = Hs.length → f = if a.static then f0 else g) := by
  induction Hs generalizing n f0 j rows with
  | nil =>
    simp only [pimmLoop, Out.ok, Out.mk.injEq, Except.ok.injEq, Prod.mk.injEq] at h
    obtain ⟨⟨rfl, rfl⟩, rfl⟩ := h
    exact ⟨rfl, fun _ => j, rfl, rfl, fun i _ => hs, by simp⟩
  | cons H Hs ih =>
    simp only [pimmLoop] at h
    rcases hm : measure j (j0.layers.map Layer.id) H oe a.disturbance (noise n) a.duration a.dt with ⟨_ | _, j1⟩
    · rw [hm] at h; simp [Out.bind, Out.ok] at h
    · rw [hm] at h
      simp only [Out.bind] at h
      rcases hro : readOut absDft a (weightSum j0) j1 H with e | ⟨row, g⟩
      · rw [hro] at h; simp [Out.fail, Out.ok] at h
      · rw [hro] at h
        dsimp only at h
        rcases hl : pimmLoop absDft a (j0.layers.map Layer.id) (weightSum j0) oe noise (n + 1) Hs (if a.static then f0 else g) j1 with
          ⟨_ | ⟨rows', f'⟩, k'⟩
        · rw [hl] at h; simp [Out.ok] at h
        · rw [hl] at h
          simp only [Out.ok, Out.mk.injEq, Except.ok.injEq, Prod.mk.injEq] at h
          obtain ⟨⟨rfl, rfl⟩, rfl⟩ := h
          have hs1 := (measure_data hs hd hall hdt hT hb hm).1
          obtain ⟨hlen, J, hJ0, hJk, hJs, hJ⟩ := ih (n + 1) _ j1 hs1 rows' hl
          refine ⟨by simp [hlen], fun i => match i with | 0 => j | i + 1 => J i, rfl, hJk, ?_, ?_⟩
          · rintro (_ | i) hi
            · exact hs
            · exact hJs i (by simpa using hi)
          · rintro (_ | i) H' row' hH hrow
            · simp only [List.getElem?_cons_zero, Option.some.injEq] at hH hrow
              subst hH hrow
              refine ⟨by simpa [hJ0, Out.ok] using hm, g, by simpa [hJ0] using hro, ?_⟩
              intro hi
              have h0 : Hs = [] := List.length_eq_zero_iff.1 (by simp only [List.length_cons] at hi; omega)
              subst h0
              simp only [pimmLoop, Out.ok, Out.mk.injEq, Except.ok.injEq, Prod.mk.injEq] at hl
              exact hl.1.2.symm
            · simp only [List.getElem?_cons_succ] at hH hrow
              obtain ⟨h1, g', h2, h3⟩ := hJ i H' row' hH hrow
              refine ⟨by rw [show n + (i + 1) = n + 1 + i by omega]; exact h1, g', h2, ?_⟩
              intro hi
              rw [h3 (by simpa using hi)]
              split <;> rfl

theorem lastN_pos {α : Type} {n : ℤ} (hn : 0 < n) (l : List α) : lastN n l = l.drop (l.length - n.toNat) := by
  unfold lastN; rw [if_pos hn]

/-- **C87.** A PIMM scan that returns. There is one record per field, in order. The junctions `J 0 = j, J 1, …` between the measurements
are such that measurement `n` starts from `J n` with the log emptied, the field of the scan and a rectangular Oersted pulse set in every
layer and the magnetisations kicked, makes `⌊T/dt⌋` solver steps and ends in `J (n+1)`. With `M i q` the magnetisation of layer `q` after
`i` of these steps, the record holds the field; what the resistance function gives for the last samples, each times the share of its layer
in the moment; the average magnetisation in the final state; and, unless `static_only`, the amplitudes of the summed signal after the
waiting time and, when `full_output`, the samples and the amplitudes of the single layers. The frequencies belong to these amplitudes. -/
theorem C87_scan {j k : Junction ℝ} (hr : Reachable j) (hd : DistinctIds j) (hall : ∀ l ∈ j.layers, l.id ≠ "all") (a : PimmArgs ℝ)
    (hdt : 0 < a.dt) (hT : 0 ≤ a.duration) (hb : a.duration / a.dt < 2 ^ 32) (hlast : 0 < a.takeLast) (noise : ℕ → ℕ → CVec ℝ)
    (Hs : List (CVec ℝ)) (rows : List (PimmRow ℝ)) (freqs : Option (List ℝ)) (h : pimm absDft a noise Hs j = .ok (rows, freqs) k) :
    a.wait ≤ a.duration ∧ a.params.length = j.layers.length ∧ rows.length = Hs.length ∧
    ∃ (d : ScalarDriver ℝ) (J : ℕ → Junction ℝ), (∀ t, d.value t = if 0 ≤ t ∧ t ≤ a.dt * a.pulse then a.excitation else 0) ∧
      J 0 = j ∧ J Hs.length = k ∧
      ∀ n H row, Hs[n]? = some H → rows[n]? = some row →
        0 < ⌊a.duration / a.dt⌋₊ ∧ row.H = H ∧ ∃ M : ℕ → ℕ → CVec ℝ,
          Trajectory (prepared (J n) H (onlyAlong a.axis d) (fun q l => kicked a.disturbance (noise n q) l)) (J (n + 1)) a.dt
            ⌊a.duration / a.dt⌋₊ M ∧
          (J (n + 1)).layers.map (fun l => (l.id, l.thickness, l.Ms)) = j.layers.map (fun l => (l.id, l.thickness, l.Ms)) ∧
          a.resFn (a.params.map (·.Rxx0)) (a.params.map (·.Rxy0)) (a.params.map (·.Ramr)) (a.params.map (·.Rahe)) (a.params.map (·.Rsmr))
            ((sharedSamples (J (n + 1)).layers ⌊a.duration / a.dt⌋₊ M).map fun vs => vs.drop (⌊a.duration / a.dt⌋₊ - a.takeLast.toNat))
            (a.params.map (·.l)) (a.params.map (·.w)) = .ok (row.Rx, row.Ry) ∧
          row.mAvg = averageMag (J (n + 1)).layers ∧
          (a.static = true → row.spectrum = [] ∧ row.traj = [] ∧ row.layers = [] ∧ freqs = none) ∧
          (a.static = false →
            row.spectrum = spectrumOf (signal a.axis (J (n + 1)).layers M (keptSteps ⌊a.duration / a.dt⌋₊ a.dt a.wait)) a.dt a.maxFrequency ∧
            freqs = some (freqsOf (keptSteps ⌊a.duration / a.dt⌋₊ a.dt a.wait).length a.dt a.maxFrequency) ∧
            (a.full = true → row.traj = sharedSamples (J (n + 1)).layers ⌊a.duration / a.dt⌋₊ M ∧
              row.layers = (layerSignals a.axis (J (n + 1)).layers M (keptSteps ⌊a.duration / a.dt⌋₊ a.dt a.wait)).map fun x =>
                spectrumOf x a.dt a.maxFrequency) ∧
            (a.full = false → row.traj = [] ∧ row.layers = [])) := by
  unfold pimm at h
  split at h
  · simp [Out.fail, Out.ok] at h
  rename_i hw
  split at h
  · simp [Out.fail, Out.ok] at h
  rename_i d hstep
  dsimp only at h
  split at h
  · simp [Out.fail, Out.ok] at h
  rename_i hlen
  have hs : Scanned j j := .refl hr
  obtain ⟨hrows, J, hJ0, hJk, hJs, hJ⟩ := pimmLoop_spec hd hall a hdt hT hb _ noise Hs 0 none j k hs rows freqs h
  refine ⟨by simpa using hw, by simpa using (not_not.1 hlen).symm, hrows, d, J, ?_, hJ0, hJk, ?_⟩
  · intro t
    have := (ScalarDriver.C03_window _ _ _ _ t d hstep).2
    rw [this]
    simp [window, Set.indicator, Set.mem_Icc]
  have hend : Hs ≠ [] → freqs = if a.static then none else
      some (freqsOf (keptSteps ⌊a.duration / a.dt⌋₊ a.dt a.wait).length a.dt a.maxFrequency) := by
    intro hne
    have hpos : 0 < Hs.length := List.length_pos_iff.2 hne
    have hn : Hs.length - 1 < Hs.length := by omega
    obtain ⟨hm, g, hro, hfr⟩ := hJ (Hs.length - 1) _ _ (List.getElem?_eq_getElem hn) (List.getElem?_eq_getElem (by rw [hrows]; exact hn))
    obtain ⟨hs1, M, hM, hdata⟩ := measure_data (hJs _ hn.le) hd hall hdt hT hb hm
    rw [← hs1.weight] at hro
    rw [hfr (by omega)]
    split
    · rfl
    rename_i hst
    rcases Nat.eq_zero_or_pos ⌊a.duration / a.dt⌋₊ with h0 | hN
    · rw [h0] at hdata
      rw [readOut_empty hdata] at hro
      cases hro
    rw [readOut_eq hdata hN (Junction.reachable_nonempty hs1.reach) a rfl] at hro
    split at hro
    · cases hro
    rw [if_neg hst] at hro
    split at hro
    · cases hro
    simp only [Except.ok.injEq, Prod.mk.injEq] at hro
    exact hro.2.symm
  intro n H row hH hrow
  have hn : n < Hs.length := (List.getElem?_eq_some_iff.1 hH).1
  obtain ⟨hm, g, hro, -⟩ := hJ n H row hH hrow
  rw [Nat.zero_add] at hm
  obtain ⟨hs1, M, hM, hdata⟩ := measure_data (hJs n hn.le) hd hall hdt hT hb hm
  rw [← hs1.weight] at hro
  rcases Nat.eq_zero_or_pos ⌊a.duration / a.dt⌋₊ with h0 | hN
  · rw [h0] at hdata
    rw [readOut_empty hdata] at hro
    cases hro
  rw [readOut_eq hdata hN (Junction.reachable_nonempty hs1.reach) a rfl] at hro
  rcases hres : resistances a.resFn a.params ((sharedSamples (J (n + 1)).layers ⌊a.duration / a.dt⌋₊ M).map (lastN a.takeLast)) with
    e | ⟨Rx, Ry⟩
  · rw [hres] at hro; cases hro
  rw [hres] at hro
  dsimp only at hro
  have hcut : (sharedSamples (J (n + 1)).layers ⌊a.duration / a.dt⌋₊ M).map (lastN a.takeLast) =
      (sharedSamples (J (n + 1)).layers ⌊a.duration / a.dt⌋₊ M).map fun vs => vs.drop (⌊a.duration / a.dt⌋₊ - a.takeLast.toNat) := by
    refine List.map_congr_left fun vs hvs => ?_
    rw [lastN_pos hlast]
    obtain ⟨q, hq, rfl⟩ := List.getElem_of_mem hvs
    simp [sharedSamples]
  have hoe : onlyAlong a.axis d = onAxis a.axis d := by cases a.axis <;> rfl
  rw [hcut] at hres
  rw [hoe]
  have hfr' : freqs = if a.static then none else g := by
    split
    · rename_i hst
      have := hend (by rintro rfl; simp at hn)
      rw [if_pos hst] at this
      exact this
    · rename_i hst
      rw [if_neg hst] at hro
      split at hro
      · cases hro
      simp only [Except.ok.injEq, Prod.mk.injEq] at hro
      have := hend (by rintro rfl; simp at hn)
      rw [if_neg hst] at this
      rw [this, ← hro.2]
  cases hst : a.static
  · simp only [hst, Bool.false_eq_true, if_false] at hro hfr'
    split at hro
    · cases hro
    simp only [Except.ok.injEq, Prod.mk.injEq] at hro
    obtain ⟨rfl, rfl⟩ := hro
    refine ⟨hN, rfl, M, hM, hs1.rigid, hres, rfl, by simp, fun _ => ⟨rfl, hfr', fun hf => by simp [hf], fun hf => by simp [hf]⟩⟩
  · simp only [hst, if_true] at hro hfr'
    simp only [Except.ok.injEq, Prod.mk.injEq] at hro
    obtain ⟨rfl, rfl⟩ := hro
    exact ⟨hN, rfl, M, hM, hs1.rigid, hres, rfl, fun _ => ⟨rfl, rfl, rfl, hfr'⟩, by simp⟩

end Proc
