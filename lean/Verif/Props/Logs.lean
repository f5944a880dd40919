import Verif.Props.Runs

/-! # C28, C30: the log of a junction -/

set_option linter.unusedSectionVars false

namespace Junction
open Spec Layer
variable {T : Type} [Scalar T]

/-! ### C30 -/

/-- helper -/
theorem runStep_setLog (j : Junction T) (L : Log T) (n : Nat) (r : Runner) (t dt : T) :
    (j.setLog L n).runStep r t dt = ⟨(j.runStep r t dt).res, (j.runStep r t dt).st.setLog L n⟩ := by
  cases r with
  | single =>
    unfold runStep runSingleLayerSolver
    dsimp only
    change (match j.layers with | [] => _ | l :: ls => _) = _
    cases j.layers <;> rfl
  | multi =>
    unfold runStep runMultiLayerSolver
    dsimp only
    rw [show (j.setLog L n).layers = j.layers from rfl]
    rcases Out.traverse _ 0 j.layers with ⟨_ | _, _⟩ <;> rfl
  | heun =>
    unfold runStep heunSolverStep
    dsimp only
    change (match Out.traverse (heunPredict (j.layers.map Layer.mag) t dt) 0 j.layers with | ⟨.error e, ls⟩ => _ | ⟨.ok _, ls⟩ => _) = _
    rcases Out.traverse (heunPredict (j.layers.map Layer.mag) t dt) 0 j.layers with ⟨_ | ss, ls⟩
    · rfl
    · dsimp only
      rcases Out.traverse (heunCorrect ss t dt) 0 ls with ⟨_ | _, _⟩ <;> rfl
  | eulerHeun =>
    unfold runStep eulerHeunSolverStep
    dsimp only
    change (match Out.traverse (eulerHeunLayer (j.layers.map Layer.mag) t dt) 0 j.layers with | ⟨.error e, ls⟩ => _ | ⟨.ok _, ls⟩ => _) = _
    rcases Out.traverse (eulerHeunLayer (j.layers.map Layer.mag) t dt) 0 j.layers with ⟨_ | _, _⟩ <;> rfl

/-- helper: `j` is `j'` with `L`, `n` put in front of its log -/
def Ext (L : Log T) (n : Nat) (j j' : Junction T) : Prop :=
  j' = j.setLog j'.log j'.logLength ∧ (∀ key, j.log.col key = L.col key ++ j'.log.col key) ∧ j.logLength = n + j'.logLength

/-- helper -/
theorem Ext.log {L : Log T} {n : Nat} {j j' : Junction T} (h : Ext L n j j') (t : T) (en : Bool) :
    (j.logLayerParams t en).res = (j'.logLayerParams t en).res ∧ Ext L n (j.logLayerParams t en).st (j'.logLayerParams t en).st := by
  obtain ⟨h1, h2, h3⟩ := h
  generalize hL : j'.log = L' at h1 h2
  generalize hn : j'.logLength = n' at h1 h3
  subst h1
  have hmr : (j.setLog L' n').mrEntries = j.mrEntries := rfl
  unfold logLayerParams
  dsimp only
  rw [hmr]
  rcases j.mrEntries with e | mr
  · refine ⟨rfl, rfl, fun key => ?_, h3⟩
    change (Log.pushAll _ _).col key = _ ++ (Log.pushAll _ _).col key
    simp only [Log.col_pushAll]
    rw [← List.append_assoc]; congr 1; exact h2 key
  · refine ⟨rfl, rfl, fun key => ?_, ?_⟩
    · change (Log.push (Log.pushAll (Log.pushAll _ _) _) _ _).col key = _ ++ (Log.push (Log.pushAll (Log.pushAll _ _) _) _ _).col key
      have hp : ∀ M : Log T, (Log.push M "time" t).col key = M.col key ++ if "time" = key then [t] else [] := by
        intro M; rw [Log.col_push]; split <;> simp
      rw [hp, hp, Log.col_pushAll, Log.col_pushAll, Log.col_pushAll, Log.col_pushAll, h2 key]
      simp only [List.append_assoc]; rfl
    · change j.logLength + 1 = n + (n' + 1); omega

/-- helper -/
theorem Ext.loop {L : Log T} {n0 : Nat} (r : Runner) (dt : T) (we : Nat) (en : Bool) (n i : Nat) {j j' : Junction T}
    (h : Ext L n0 j j') : (runLoop r dt we en i n j).res = (runLoop r dt we en i n j').res ∧
      Ext L n0 (runLoop r dt we en i n j).st (runLoop r dt we en i n j').st := by
  induction n generalizing i j j' with
  | zero => exact ⟨rfl, h⟩
  | succ n ih =>
    obtain ⟨h1, h2, h3⟩ := h
    have hs := runStep_setLog j j'.log j'.logLength r (Scalar.lit (i : ℚ) * dt) dt
    rw [← h1] at hs
    have hf := runStep_frame j r (Scalar.lit (i : ℚ) * dt) dt
    have hE : Ext L n0 (j.runStep r (Scalar.lit (i : ℚ) * dt) dt).st (j'.runStep r (Scalar.lit (i : ℚ) * dt) dt).st := by
      rw [hs, hf]; exact ⟨rfl, h2, h3⟩
    have hr : (j.runStep r (Scalar.lit (i : ℚ) * dt) dt).res = (j'.runStep r (Scalar.lit (i : ℚ) * dt) dt).res := by rw [hs]
    unfold runLoop
    dsimp only
    generalize j.runStep r (Scalar.lit (i : ℚ) * dt) dt = x at hE hr
    generalize j'.runStep r (Scalar.lit (i : ℚ) * dt) dt = y at hE hr
    obtain ⟨xr, x⟩ := x
    obtain ⟨yr, y⟩ := y
    dsimp only at hE hr
    subst hr
    cases xr with
    | error e => exact ⟨rfl, hE⟩
    | ok u =>
      simp only [Out.bind]
      split
      · exact ⟨rfl, hE⟩
      · split
        · obtain ⟨q1, q2⟩ := hE.log (Scalar.lit (i : ℚ) * dt) en
          generalize x.logLayerParams (Scalar.lit (i : ℚ) * dt) en = x2 at q1 q2
          generalize y.logLayerParams (Scalar.lit (i : ℚ) * dt) en = y2 at q1 q2
          obtain ⟨xr2, x2⟩ := x2
          obtain ⟨yr2, y2⟩ := y2
          dsimp only at q1 q2
          subst q1
          cases xr2 with
          | error e => exact ⟨rfl, q2⟩
          | ok u => exact ih (i + 1) q2
        · exact ih (i + 1) hE

/-- C30: a run appends. Compared with the same run on the junction with a cleared log, the outcome and the layers are
the same and every column holds the old entries followed by the entries of that run — whether it succeeds or throws. -/
theorem C30_append (j : Junction T) (total dt wf : T) (en : Bool) (mode : SolverMode) :
    let a := j.runSimulation total dt wf en mode
    let b := j.clearLog.runSimulation total dt wf en mode
    a.res = b.res ∧ a.st.layers = b.st.layers ∧ a.st.logLength = j.logLength + b.st.logLength ∧
    ∀ key, a.st.log.col key = j.log.col key ++ b.st.log.col key := by
  have key : (j.runSimulation total dt wf en mode).res = (j.clearLog.runSimulation total dt wf en mode).res ∧
      Ext j.log j.logLength (j.runSimulation total dt wf en mode).st (j.clearLog.runSimulation total dt wf en mode).st := by
    have h0 : Ext j.log j.logLength j j.clearLog := ⟨rfl, fun key => by simp [clearLog, Log.col], by simp [clearLog]⟩
    unfold runSimulation
    split
    · exact ⟨rfl, h0⟩
    · split
      · rename_i N W _ _
        unfold getSolver
        have : j.clearLog.layers = j.layers := rfl
        rw [this]
        rcases solverLoop N mode j.layers with ⟨_ | m, ls⟩
        · exact ⟨rfl, rfl, h0.2.1, h0.2.2⟩
        · exact Ext.loop _ dt W en N 0 ⟨rfl, h0.2.1, h0.2.2⟩
      · exact ⟨rfl, h0⟩
  obtain ⟨h1, h2, h3, h4⟩ := key
  refine ⟨h1, ?_, h4, h3⟩
  rw [h2]; rfl

/-- C30: `clearLog` empties the log and changes nothing else. -/
theorem C30_clear (j : Junction T) :
    (∀ key, j.clearLog.log.col key = []) ∧ j.clearLog.log.keys = [] ∧ j.clearLog.logLength = 0 ∧
    j.clearLog.layers = j.layers ∧ j.SameParams j.clearLog :=
  ⟨fun _ => rfl, rfl, rfl, rfl, SameParams.refl j⟩

/-- helper -/
theorem other_call_log (j : Junction T) (c : Call T) (h1 : c ≠ .clearLog) (h2 : ∀ t d w e m, c ≠ .run t d w e m) :
    (c.exec j).st.log = j.log ∧ (c.exec j).st.logLength = j.logLength := by
  have e1 : ∀ id f, (j.layerSetter id f).st.log = j.log ∧ (j.layerSetter id f).st.logLength = j.logLength := by
    intro id f; rw [layerSetter_st]; exact ⟨rfl, rfl⟩
  have e2 : ∀ id f, (j.firstOrAll id f).st.log = j.log ∧ (j.firstOrAll id f).st.logLength = j.logLength := by
    intro id f; rw [firstOrAll_st]; exact ⟨rfl, rfl⟩
  have e3 : ∀ a b f g, (j.coupling a b f g).st.log = j.log ∧ (j.coupling a b f g).st.logLength = j.logLength := by
    intro a b f g; rw [coupling_st]; exact ⟨rfl, rfl⟩
  cases c with
  | clearLog => exact absurd rfl h1
  | run t d w e m => exact absurd rfl (h2 t d w e m)
  | iec => exact e3 ..
  | quadIec => exact e3 ..
  | idmi => exact e3 ..
  | alternativeSTT => exact e2 ..
  | oneFNoise => exact e2 ..
  | referenceLayer => exact e2 ..
  | referenceType => exact e2 ..
  | _ => exact e1 ..

/-- C30: no call other than `clearLog` ever removes or alters a logged value. -/
theorem C30_prefix (cs : List (Call T)) (hc : ∀ c ∈ cs, c ≠ .clearLog) (j : Junction T) (key : String) :
    ∃ new, (program cs j).log.col key = j.log.col key ++ new := by
  induction cs generalizing j with
  | nil => exact ⟨[], by simp [program]⟩
  | cons c cs ih =>
    obtain ⟨new, hn⟩ := ih (fun c hc' => hc c (List.mem_cons_of_mem _ hc')) (c.exec j).st
    have : ∃ n1, (c.exec j).st.log.col key = j.log.col key ++ n1 := by
      by_cases hr : ∃ t d w e m, c = .run t d w e m
      · obtain ⟨t, d, w, e, m, rfl⟩ := hr
        exact ⟨_, (C30_append j t d w e m).2.2.2 key⟩
      · push Not at hr
        exact ⟨[], by rw [(other_call_log j c (hc c (by simp)) hr).1, List.append_nil]⟩
    obtain ⟨n1, h1⟩ := this
    exact ⟨n1 ++ new, by rw [← List.append_assoc, ← h1]; exact hn⟩

/-! ### C28 -/

/-- helper -/
theorem layer_columns (l : Layer T) (en : Bool) (h : en = true → l.includeSTT = false ∧ l.includeSOT = false) :
    (layerEntries l en).map Prod.fst = layerColumns en l.id := by
  rw [layerEntries_keys]
  cases en
  · simp [Keys.sufs, layerColumns]
  · obtain ⟨h1, h2⟩ := h rfl
    rw [h1, h2]; simp [Keys.sufs, layerColumns]

/-- helper -/
theorem mrKeys_length (j : Junction T) {ls ls' : List (Layer T)} (h : ls.length = ls'.length) : mrKeys j ls = mrKeys j ls' := by
  unfold mrKeys
  cases j.mrMode
  · rfl
  · rcases ls with _ | ⟨a, _ | ⟨b, ls⟩⟩ <;> rcases ls' with _ | ⟨a', _ | ⟨b', ls'⟩⟩ <;> first | rfl | simp at h
  · rfl

/-- helper -/
theorem row_columns (j : Junction T) (en : Bool) (ls : List (Layer T)) (t : T) (hm : j.MrOk) (hR : j.RtagOk)
    (hs : List.Forall₂ Same j.layers ls) (hf : en = true → ∀ l ∈ ls, l.includeSTT = false ∧ l.includeSOT = false) :
    (rowOf j en (ls, t)).map Prod.fst = columns en j := by
  obtain ⟨mr, h1, h2, h3⟩ := rowOf_eq j en ls t (mrOk_withLayers hm hs.length_eq.symm)
  have hids := same_ids hs
  rw [h3, List.map_append, List.map_append, h2, List.map_flatMap]
  unfold columns
  have e1 : ls.flatMap (fun l => (layerEntries l en).map Prod.fst) = (j.layers.map Layer.id).flatMap (layerColumns en) := by
    rw [← hids, List.flatMap_map]
    have : ∀ ls' : List (Layer T), (∀ l ∈ ls', l ∈ ls) → ls'.flatMap (fun l => (layerEntries l en).map Prod.fst) =
        ls'.flatMap (fun l => layerColumns en l.id) := by
      intro ls' h
      induction ls' with
      | nil => rfl
      | cons l ls' ih =>
        rw [List.flatMap_cons, List.flatMap_cons, ih (fun l hl => h l (List.mem_cons_of_mem _ hl)),
          layer_columns l en (fun he => hf he l (h l (by simp)))]
    exact this ls (fun _ h => h)
  have e2 : mrKeys j ls = resistanceNames j := by
    rw [← mrKeys_names hR]; exact mrKeys_length j hs.length_eq.symm
  rw [e1, e2]; rfl

/-- helper: the invariant -/
structure LogInv (en : Bool) (j : Junction T) : Prop where
  mr : j.MrOk
  tag : j.RtagOk
  ids : DistinctIds j
  flags : en = true → ∀ l ∈ j.layers, l.includeSTT = false ∧ l.includeSOT = false
  tidy : j.log.Tidy
  cols : ∀ key, (j.log.col key).length = if key ∈ columns en j then j.logLength else 0

/-- helper -/
theorem columns_congr {j k : Junction T} (hp : j.SameParams k) (hi : k.layers.map Layer.id = j.layers.map Layer.id) (en : Bool) :
    columns en k = columns en j := by
  obtain ⟨a1, a2, a3, a4, a5, a6, a7, a8, a9, a10, a11, a12⟩ := hp
  unfold columns resistanceNames
  rw [hi, a1]

/-- helper -/
theorem rows_length {en : Bool} {j : Junction T} (h : LogInv en j) (rows : List (List (Layer T) × T))
    (hs : ∀ p ∈ rows, List.Forall₂ Same j.layers p.1) (key : String) :
    (Log.vals (rows.flatMap (rowOf j en)) key).length = if key ∈ columns en j then rows.length else 0 := by
  induction rows with
  | nil => simp [Log.vals_nil]
  | cons p rows ih =>
    obtain ⟨ls, t⟩ := p
    have hls := hs (ls, t) (by simp)
    have hf : en = true → ∀ l ∈ ls, l.includeSTT = false ∧ l.includeSOT = false := fun he =>
      sames_all (P := fun l => l.includeSTT = false ∧ l.includeSOT = false)
        (fun l l' hsame hl => by obtain ⟨m, d, g, e, n, rfl⟩ := hsame; exact hl) hls (h.flags he)
    have hids : j.layers.map Layer.id = ls.map Layer.id := (same_ids hls).symm
    have hn := row_nodup j (en := en) (t := t) (mrOk_withLayers h.mr hls.length_eq.symm) h.tag hids
      (by rw [← hids]; exact h.ids) hf
    rw [List.flatMap_cons, Log.vals_append, List.length_append, ih (fun p hp => hs p (List.mem_cons_of_mem _ hp)),
      Log.vals_length hn, row_columns j en ls t h.mr h.tag hls hf]
    split <;> simp [Nat.add_comm]

/-- helper -/
theorem LogInv.call {en : Bool} {j : Junction T} (h : LogInv en j) (c : Call T) (h1 : c.energiesOnly en)
    (h2 : en = true → c.noTorque) : LogInv en (c.exec j).st := by
  have hp := Call.params j c
  have hi := Call.ids j c
  have hc := columns_congr hp hi en
  refine ⟨hp.mrOk h.mr, h.tag.params hp hi, by unfold DistinctIds; rw [hi]; exact h.ids, ?_, ?_, ?_⟩
  · intro he
    by_cases hr : ∃ t d w e m, c = .run t d w e m
    · obtain ⟨t, d, w, e, m, rfl⟩ := hr
      exact sames_all (P := fun l => l.includeSTT = false ∧ l.includeSOT = false)
        (fun l l' hsame hl => by obtain ⟨m, d, g, e, n, rfl⟩ := hsame; exact hl) (runSimulation_same j t d w e m) (h.flags he)
    · push Not at hr
      have := Call.keeps (fun l l' => l'.includeSTT = l.includeSTT ∧ l'.includeSOT = l.includeSOT) (fun _ => ⟨rfl, rfl⟩)
        (fun _ _ => ⟨rfl, rfl⟩) (fun _ _ => ⟨rfl, rfl⟩) (fun _ _ => ⟨rfl, rfl⟩) (fun _ _ => ⟨rfl, rfl⟩) (fun _ _ => ⟨rfl, rfl⟩)
        (fun _ _ => ⟨rfl, rfl⟩) (fun _ _ => ⟨rfl, rfl⟩) (fun _ _ => ⟨rfl, rfl⟩)
        (fun l m => by rcases setMagnetisation_st l m with h | h <;> simp [h, Layer.setMag])
        (fun _ _ => ⟨rfl, rfl⟩) (fun _ => ⟨rfl, rfl⟩) (fun _ _ => ⟨rfl, rfl⟩)
        (fun l m => by rcases setReferenceType_st l m with h | h <;> simp [h])
        (fun _ _ => ⟨rfl, rfl⟩) (fun _ _ => ⟨rfl, rfl⟩) (fun _ _ => ⟨rfl, rfl⟩) (fun _ _ => ⟨rfl, rfl⟩) (fun _ _ => ⟨rfl, rfl⟩)
        (fun _ _ => ⟨rfl, rfl⟩) j c
        (fun hx => by
          obtain ⟨id, d, rfl | rfl⟩ := hx
          · exact absurd (h2 he) (by simp [Call.noTorque])
          · exact absurd (h2 he) (by simp [Call.noTorque])) hr
      have hfl := h.flags he
      generalize j.layers = a, (c.exec j).st.layers = b at this hfl
      intro l hl
      induction this with
      | nil => cases hl
      | cons hab _ ih =>
        rcases List.mem_cons.1 hl with rfl | hl
        · rw [hab.1, hab.2]; exact hfl _ (by simp)
        · exact ih (fun l hl => hfl l (List.mem_cons_of_mem _ hl)) hl
  · by_cases hr : ∃ t d w e m, c = .run t d w e m
    · obtain ⟨t, d, w, e, m, rfl⟩ := hr
      obtain ⟨rows, e1, -, -⟩ := runSimulation_rows j t d w e m h.mr
      change ((j.runSimulation t d w e m).st.log).Tidy
      rw [e1]; exact Log.tidy_pushAll h.tidy _
    · push Not at hr
      by_cases hcl : c = .clearLog
      · subst hcl; exact ⟨List.nodup_nil, by intro kv hkv; cases hkv⟩
      · rw [(other_call_log j c hcl hr).1]; exact h.tidy
  · intro key
    rw [hc]
    by_cases hr : ∃ t d w e m, c = .run t d w e m
    · obtain ⟨t, d, w, e, m, rfl⟩ := hr
      obtain rfl : e = en := h1
      obtain ⟨rows, e1, e2, e3⟩ := runSimulation_rows j t d w e m h.mr
      change ((j.runSimulation t d w e m).st.log.col key).length = if _ then (j.runSimulation t d w e m).st.logLength else 0
      rw [e1, e2, Log.col_pushAll, List.length_append, h.cols, rows_length h rows e3]
      split <;> simp
    · push Not at hr
      by_cases hcl : c = .clearLog
      · subst hcl; simp [Call.exec, clearLog, Log.col]
      · rw [(other_call_log j c hcl hr).1, (other_call_log j c hcl hr).2]; exact h.cols key

/-- helper -/
theorem LogInv.program {en : Bool} {j : Junction T} (h : LogInv en j) (cs : List (Call T)) (h1 : ∀ c ∈ cs, c.energiesOnly en)
    (h2 : en = true → ∀ c ∈ cs, c.noTorque) : LogInv en (program cs j) := by
  induction cs generalizing j with
  | nil => exact h
  | cons c cs ih =>
    exact ih (h.call c (h1 c (by simp)) (fun he => h2 he c (by simp))) (fun c hc => h1 c (List.mem_cons_of_mem _ hc))
      (fun he c hc => h2 he c (List.mem_cons_of_mem _ hc))

/-- helper -/
theorem LogInv.start {en : Bool} {j : Junction T} (h : Constructed j) (hd : DistinctIds j)
    (hf : en = true → ∀ l ∈ j.layers, l.includeSTT = false ∧ l.includeSOT = false) : LogInv en j := by
  obtain ⟨h1, h2, h3, h4, -⟩ := Constructed_inv h
  refine ⟨h1, h2, hd, hf, ?_, fun key => ?_⟩
  · rw [h3]; exact ⟨List.nodup_nil, by intro kv hkv; cases hkv⟩
  · rw [h3, h4]; simp [Log.col]

/-- helper -/
theorem LogInv.aligned {en : Bool} {j : Junction T} (h : LogInv en j) :
    Aligned j ∧ ∀ key, key ∈ j.log.keys ↔ key ∈ columns en j ∧ j.logLength ≠ 0 := by
  have hk : ∀ key, key ∈ j.log.keys ↔ key ∈ columns en j ∧ j.logLength ≠ 0 := by
    intro key
    rw [← Log.col_ne_nil h.tidy, ← List.length_pos_iff_ne_nil, h.cols]
    by_cases hc : key ∈ columns en j <;> simp [hc, Nat.pos_iff_ne_zero]
  refine ⟨⟨h.tidy.1, fun key hkey => ?_⟩, hk⟩
  rw [h.cols, if_pos ((hk key).1 hkey).1]

/-- C28, without energies: after any sequence of calls (failing ones included) on a junction with distinct layer ids, in
which no run logs energies, all columns have the same length, one entry per logged row, and the columns are exactly
the three magnetisation components of every layer, the resistances and the time. -/
theorem C28_aligned (j0 : Junction T) (h0 : Constructed j0) (hd : DistinctIds j0) (cs : List (Call T))
    (hc : ∀ c ∈ cs, c.energiesOnly false) :
    Aligned (program cs j0) ∧
    ∀ key, key ∈ (program cs j0).log.keys ↔ key ∈ columns false j0 ∧ (program cs j0).logLength ≠ 0 := by
  have := ((LogInv.start h0 hd (en := false) (by simp)).program cs hc (by simp)).aligned
  rwa [columns_congr (program_params cs j0) (program_ids cs j0)] at this

/-- C28, with energies: the same when all runs log energies, no layer has STT or SOT and no torque driver is set. -/
theorem C28_energies_partial (j0 : Junction T) (h0 : Constructed j0) (hd : DistinctIds j0)
    (hf : ∀ l ∈ j0.layers, l.includeSTT = false ∧ l.includeSOT = false) (cs : List (Call T))
    (hc : ∀ c ∈ cs, c.energiesOnly true) (ht : ∀ c ∈ cs, c.noTorque) :
    Aligned (program cs j0) ∧
    ∀ key, key ∈ (program cs j0).log.keys ↔ key ∈ columns true j0 ∧ (program cs j0).logLength ≠ 0 := by
  have := ((LogInv.start h0 hd (en := true) (fun _ => hf)).program cs hc (fun _ => ht)).aligned
  rwa [columns_congr (program_params cs j0) (program_ids cs j0)] at this

/-- helper -/
theorem mapM_some {α β : Type} (f : α → Option β) (l : List α) (h : ∀ a ∈ l, ∃ b, f a = some b) :
    ∃ bs, l.mapM f = some bs ∧ bs.length = l.length ∧ ∀ (i : Nat) (a : α), l[i]? = some a → bs[i]? = f a := by
  induction l with
  | nil => exact ⟨[], by simp⟩
  | cons a l ih =>
    obtain ⟨b, hb⟩ := h a (by simp)
    obtain ⟨bs, h1, h2, h3⟩ := ih (fun a ha => h a (List.mem_cons_of_mem _ ha))
    refine ⟨b :: bs, ?_, by simp [h2], ?_⟩
    · rw [List.mapM_cons, hb, h1]; rfl
    · intro i x hx
      cases i with
      | zero => simp at hx; subst hx; simp [hb]
      | succ i => simp at hx; simpa using h3 i x hx

/-- C28: saving an aligned log reads nothing out of range; the table has one row per logged row and one column per
key, and its cells are the logged values. -/
theorem C28_save (j : Junction T) (h : Aligned j) (name : String) (hn : name ≠ "") :
    ∃ rows, j.saveLogs name = .ok (j.log.keys, rows) ∧ rows.length = j.logLength ∧
      ∀ (i q : Nat) (key : String), i < j.logLength → j.log.keys[q]? = some key →
        ∃ row, rows[i]? = some row ∧ row.length = j.log.keys.length ∧ row[q]? = (j.log.col key)[i]? := by
  obtain ⟨hk, hl⟩ := h
  have hlen : ∀ kv ∈ j.log, kv.2.length = j.logLength := fun kv hkv => by
    rw [← Log.col_of_mem hk hkv]; exact hl _ (List.mem_map.2 ⟨kv, hkv, rfl⟩)
  have hrow : ∀ i, i < j.logLength → ∃ row, j.log.mapM (fun kv => kv.2[i]?) = some row ∧ row.length = j.log.length ∧
      ∀ (q : Nat) (kv : String × List T), j.log[q]? = some kv → row[q]? = kv.2[i]? := by
    intro i hi
    exact mapM_some _ _ (fun kv hkv => ⟨_, List.getElem?_eq_getElem (by rw [hlen kv hkv]; exact hi)⟩)
  obtain ⟨rows, h1, h2, h3⟩ := mapM_some (fun i => j.log.mapM (fun kv => kv.2[i]?)) (List.range j.logLength) (fun i hi => by
    obtain ⟨row, hr, -⟩ := hrow i (List.mem_range.1 hi); exact ⟨row, hr⟩)
  refine ⟨rows, ?_, by simpa using h2, ?_⟩
  · unfold saveLogs
    rw [if_neg hn]
    dsimp only
    rw [h1]
  · intro i q key hi hq
    obtain ⟨row, hr, hlr, hcell⟩ := hrow i hi
    refine ⟨row, ?_, by rw [hlr]; simp [Log.keys], ?_⟩
    · rw [h3 i i (by rw [List.getElem?_range hi]), hr]
    · obtain ⟨kv, hkv, rfl⟩ : ∃ kv, j.log[q]? = some kv ∧ kv.1 = key := by
        unfold Log.keys at hq
        rw [List.getElem?_map, Option.map_eq_some_iff] at hq
        exact hq
      rw [hcell q kv hkv, Log.col_of_mem hk (List.mem_of_getElem? hkv)]

/-! ### Where C28 fails -/

/-- helper -/
theorem tidy_nil : Log.Tidy ([] : Log T) := ⟨List.nodup_nil, by intro kv hkv; cases hkv⟩
/-- helper -/
theorem suf_I : Keys.Suf "_I" := ⟨['I'], by decide, by decide⟩
/-- helper -/
theorem suf_K : Keys.Suf "_K" := ⟨['K'], by decide, by decide⟩

/-- helper -/
theorem vals_I (l : Layer T) : Log.vals (layerEntries l true) (l.id ++ "_I") =
    if l.includeSTT || l.includeSOT then [l.cache.I, l.cache.I] else [l.cache.I] := by
  unfold layerEntries energyComponent
  cases l.includeSOT <;> cases l.includeSTT <;> simp [Log.vals_cons, Log.vals_nil, String.append_assoc]

/-- helper -/
theorem vals_K (l : Layer T) (en : Bool) : Log.vals (layerEntries l en) (l.id ++ "_K") = if en then [l.cache.K] else [] := by
  unfold layerEntries energyComponent
  cases en <;> cases l.includeSOT <;> cases l.includeSTT <;> simp [Log.vals_cons, Log.vals_nil, String.append_assoc]

/-- helper: the number of values a successful run appends to a column of a layer -/
theorem run_layer_column {j k : Junction T} (hr : Reachable j) (hd : DistinctIds j) {total dt wf : T} {en : Bool} {mode : SolverMode}
    (h : j.runSimulation total dt wf en mode = .ok () k) {l : Layer T} (hl : l ∈ j.layers) {s : String} (hs : Keys.Suf s) (c : Nat)
    (hc : ∀ l', Same l l' → (Log.vals (layerEntries l' en) (l'.id ++ s)).length = c) :
    ∃ q, k.logLength = j.logLength + q ∧ (k.log.col (l.id ++ s)).length = (j.log.col (l.id ++ s)).length + c * q ∧
      ∃ N W, Scalar.toUInt (total / dt) = some N ∧ Scalar.toUInt (wf / dt) = some W ∧ q = (sampleSteps N W).length := by
  obtain ⟨hm, hR⟩ := Reachable_inv hr
  obtain ⟨N, W, r, m, j1, -, hN, hW, hg, -, hlog, hlen, -⟩ := runSimulation_log hm h
  have hs1 : List.Forall₂ Same j.layers j1.layers := by
    have := getSolver_same j mode N; rw [hg] at this; exact this
  rw [logged_eq] at hlog hlen
  have hst : ∀ i, List.Forall₂ Same j.layers (steps r dt 0 i j1).st.layers := fun i => by
    rw [steps_eq_evolve]; exact sames_trans hs1 (evolve_same r dt i 0 j1)
  refine ⟨(sampleSteps N W).length, by rw [hlen]; simp, ?_, N, W, hN, hW, rfl⟩
  rw [hlog, Log.col_pushAll, List.length_append]
  congr 1
  generalize sampleSteps N W = ss
  induction ss with
  | nil => simp [Log.vals_nil]
  | cons i ss ih =>
    rw [List.map_cons, List.flatMap_cons, Log.vals_append, List.length_append, ih]
    obtain ⟨q, hq⟩ := List.mem_iff_getElem?.1 hl
    have hlt0 := (List.getElem?_eq_some_iff.1 hq).1
    have hlt : q < (steps r dt 0 (i + 1) j1).st.layers.length := by rw [← (hst (i + 1)).length_eq]; exact hlt0
    have hsame := (List.forall₂_iff_get.1 (hst (i + 1))).2 q hlt0 hlt
    have hids := (same_ids (hst (i + 1))).symm
    have e : j.layers.get ⟨q, hlt0⟩ = l := (List.getElem?_eq_some_iff.1 hq).2
    rw [e] at hsame
    rw [← hsame.id, row_layer j (mrOk_withLayers hm (hst (i + 1)).length_eq.symm) hR hids (by rw [← hids]; exact hd)
      (List.get_mem _ _) hs, hc _ hsame, List.length_cons]
    ring

/-- C28 fails with energies and torques: every logged row appends two values to the current column of a layer with STT or
SOT and one value to the time. -/
theorem C28_current_doubled {j k : Junction T} (hr : Reachable j) (hd : DistinctIds j) {total dt wf : T} {mode : SolverMode}
    (h : j.runSimulation total dt wf true mode = .ok () k) {l : Layer T} (hl : l ∈ j.layers)
    (ht : l.includeSTT = true ∨ l.includeSOT = true) :
    ∃ q, k.logLength = j.logLength + q ∧ (k.log.col (l.id ++ "_I")).length = (j.log.col (l.id ++ "_I")).length + 2 * q := by
  obtain ⟨q, h1, h2, -⟩ := run_layer_column hr hd h hl suf_I 2 (fun l' hs => by
    rw [vals_I]
    obtain ⟨m, d, g, e, n, rfl⟩ := hs
    have : (l.includeSTT || l.includeSOT) = true := by simpa using ht
    simp [this])
  exact ⟨q, h1, h2⟩

/-- helper: a junction of one layer with a spin-transfer torque -/
noncomputable def sttJ : Junction ℝ := { demoJ with layers := [{ quietLayer with includeSTT := true }] }

/-- helper -/
theorem sttJ_constructed : Constructed sttJ :=
  .inl ⟨[{ quietLayer with includeSTT := true }], by simp [plain, sttJ, demoJ]⟩

/-- helper: one logged step -/
theorem one_step_run (j : Junction ℝ) (hr : Reachable j) (hg : ∀ l ∈ j.layers, l.Ms * l.thickness ≠ 0)
    (hq : ∀ l ∈ j.layers, ¬ Noisy l) (en : Bool) : ∃ k, j.runSimulation 1 1 1 en .RK4 = .ok () k :=
  C27_completes j hr hg hq 1 1 1 en .RK4 (by norm_num) (by norm_num) (by norm_num) (by norm_num) (by norm_num)

/-- helper -/
theorem toUInt_unit : Scalar.toUInt ((1 : ℝ) / 1) = some 1 := by
  rw [div_one, toUInt_floor 1 (by norm_num) (by norm_num)]; simp

/-- helper -/
theorem one_sample {N W : Nat} (hN : Scalar.toUInt ((1 : ℝ) / 1) = some N) (hW : Scalar.toUInt ((1 : ℝ) / 1) = some W) :
    (sampleSteps N W).length = 1 := by
  rw [toUInt_unit] at hN hW; cases hN; cases hW; rfl

/-- helper -/
theorem exec_st {j k : Junction T} {total dt wf : T} {en : Bool} {mode : SolverMode}
    (h : j.runSimulation total dt wf en mode = .ok () k) : ((Call.run total dt wf en mode).exec j).st = k := by
  change (j.runSimulation total dt wf en mode).st = k; rw [h]; rfl

/-- helper: what an unaligned column means -/
theorem not_aligned {j : Junction T} (ht : j.log.Tidy) {key : String} (h0 : (j.log.col key) ≠ [])
    (h : (j.log.col key).length ≠ j.logLength) : ¬ Aligned j :=
  fun ha => h (ha.2 key ((Log.col_ne_nil ht key).1 h0))

/-- C28 as stated is false: one run with energies on a junction whose layer has STT leaves a current column of length two
beside a time column of length one. -/
theorem C28_refuted : ∃ (j0 : Junction ℝ) (cs : List (Call ℝ)), Constructed j0 ∧ DistinctIds j0 ∧
    (program cs j0).logLength = 1 ∧ ((program cs j0).log.col "free_I").length = 2 ∧ ¬ Aligned (program cs j0) := by
  have hR : Reachable sttJ := ⟨sttJ, [], sttJ_constructed, rfl⟩
  have hd : DistinctIds sttJ := by simp [DistinctIds, sttJ]
  obtain ⟨k, hk⟩ := one_step_run sttJ hR (by simp [sttJ, quietLayer, plainOf, Layer.demo])
    (by simp [sttJ, quietLayer, plainOf, Layer.demo, Noisy]) true
  have hl : ({ quietLayer with includeSTT := true } : Layer ℝ) ∈ sttJ.layers := by simp [sttJ]
  obtain ⟨q, h1, h2, N, W, hN, hW, rfl⟩ := run_layer_column hR hd hk hl suf_I 2 (fun l' hs => by
    rw [vals_I]
    obtain ⟨m, d, g, e, n, rfl⟩ := hs
    simp)
  rw [one_sample hN hW] at h1 h2
  have hst := exec_st hk
  refine ⟨sttJ, [.run 1 1 1 true .RK4], sttJ_constructed, hd, ?_⟩
  change ((Call.run 1 1 1 true .RK4).exec sttJ).st.logLength = 1 ∧
    (((Call.run 1 1 1 true .RK4).exec sttJ).st.log.col "free_I").length = 2 ∧ ¬ Aligned ((Call.run 1 1 1 true .RK4).exec sttJ).st
  rw [hst]
  have hid : ({ quietLayer with includeSTT := true } : Layer ℝ).id ++ "_I" = "free_I" := by
    simp [quietLayer, plainOf, Layer.demo]
  have hI : (k.log.col "free_I").length = 2 := by rw [← hid, h2]; rfl
  have hlen : k.logLength = 1 := by rw [h1]; rfl
  refine ⟨hlen, hI, not_aligned (key := "free_I") ?_ (by intro h; rw [h] at hI; simp at hI) (by rw [hI, hlen]; norm_num)⟩
  obtain ⟨rows, e1, -, -⟩ := runSimulation_rows sttJ 1 1 1 true .RK4 (Constructed_inv sttJ_constructed).1
  rw [hk] at e1
  change k.log = _ at e1
  rw [e1]
  exact Log.tidy_pushAll (tidy_nil (T := ℝ)) _

/-- helper -/
noncomputable def quietJ : Junction ℝ := { demoJ with layers := [quietLayer] }

/-- helper -/
theorem quietJ_constructed : Constructed quietJ := .inl ⟨[quietLayer], by simp [plain, quietJ, demoJ]⟩

/-- C28 is false across different energies settings even without torques: a run without energies followed by a run with
energies leaves energy columns shorter than the log, and saving it reads out of range. -/
theorem C28_toggle_refuted : ∃ (j0 : Junction ℝ) (cs : List (Call ℝ)), Constructed j0 ∧ DistinctIds j0 ∧
    (∀ l ∈ j0.layers, l.includeSTT = false ∧ l.includeSOT = false) ∧
    (program cs j0).logLength = 2 ∧ ((program cs j0).log.col "free_K").length = 1 ∧ ¬ Aligned (program cs j0) ∧
    (program cs j0).saveLogs "log.csv" = .error .ub := by
  have hR : Reachable quietJ := ⟨quietJ, [], quietJ_constructed, rfl⟩
  have hd : DistinctIds quietJ := by simp [DistinctIds, quietJ]
  have hl : quietLayer ∈ quietJ.layers := by simp [quietJ]
  have hG : ∀ l ∈ quietJ.layers, l.Ms * l.thickness ≠ 0 := by simp [quietJ, quietLayer, plainOf, Layer.demo]
  have hQ : ∀ l ∈ quietJ.layers, ¬ Noisy l := by simp [quietJ, quietLayer, plainOf, Layer.demo, Noisy]
  obtain ⟨k1, hk1⟩ := one_step_run quietJ hR hG hQ false
  obtain ⟨q1, a1, a2, N, W, hN, hW, rfl⟩ := run_layer_column hR hd hk1 hl suf_K 0 (fun l' _ => by rw [vals_K]; rfl)
  rw [one_sample hN hW] at a1 a2
  have hR1 : Reachable k1 := ⟨quietJ, [.run 1 1 1 false .RK4], quietJ_constructed, (exec_st hk1).symm⟩
  have hs := runSimulation_same quietJ 1 1 1 false .RK4
  rw [hk1] at hs
  change List.Forall₂ Same quietJ.layers k1.layers at hs
  have hd1 : DistinctIds k1 := by unfold DistinctIds; rw [same_ids hs]; exact hd
  obtain ⟨k2, hk2⟩ := one_step_run k1 hR1
    (sames_all (P := fun l => l.Ms * l.thickness ≠ 0) (fun l l' h hp => by obtain ⟨m, d, g, e, n, rfl⟩ := h; exact hp) hs hG)
    (sames_all (P := fun l => ¬ Noisy l) (fun l l' h hp => by obtain ⟨m, d, g, e, n, rfl⟩ := h; exact hp) hs hQ) true
  obtain ⟨l1, hl1, hid⟩ : ∃ l1 ∈ k1.layers, l1.id = "free" := by
    have : quietLayer.id ∈ k1.layers.map Layer.id := by rw [same_ids hs]; exact List.mem_map.2 ⟨_, hl, rfl⟩
    obtain ⟨l1, h1, h2⟩ := List.mem_map.1 this
    exact ⟨l1, h1, by rw [h2]; simp [quietLayer, plainOf, Layer.demo]⟩
  obtain ⟨q2, b1, b2, N, W, hN, hW, rfl⟩ := run_layer_column hR1 hd1 hk2 hl1 suf_K 1 (fun l' _ => by rw [vals_K]; rfl)
  rw [one_sample hN hW] at b1 b2
  have hlen : k2.logLength = 2 := by rw [b1, a1]; rfl
  have hK : (k2.log.col "free_K").length = 1 := by
    have e0 : quietLayer.id ++ "_K" = "free_K" := by simp [quietLayer, plainOf, Layer.demo]
    have e1 : l1.id ++ "_K" = "free_K" := by rw [hid]; rfl
    rw [e0] at a2; rw [e1] at b2
    rw [b2, a2]; rfl
  have htidy : k2.log.Tidy := by
    obtain ⟨r1, e1, -, -⟩ := runSimulation_rows quietJ 1 1 1 false .RK4 (Constructed_inv quietJ_constructed).1
    obtain ⟨r2, e2, -, -⟩ := runSimulation_rows k1 1 1 1 true .RK4 (Reachable_inv hR1).1
    rw [hk1] at e1; rw [hk2] at e2
    change k1.log = _ at e1
    change k2.log = _ at e2
    rw [e2, e1]
    exact Log.tidy_pushAll (Log.tidy_pushAll (tidy_nil (T := ℝ)) _) _
  have hpr : program [.run 1 1 1 false .RK4, .run 1 1 1 true .RK4] quietJ = k2 := by
    change ((Call.run 1 1 1 true .RK4).exec ((Call.run 1 1 1 false .RK4).exec quietJ).st).st = k2
    rw [exec_st hk1, exec_st hk2]
  refine ⟨quietJ, [.run 1 1 1 false .RK4, .run 1 1 1 true .RK4], quietJ_constructed, hd,
    by simp [quietJ, quietLayer, plainOf, Layer.demo], ?_⟩
  rw [hpr]
  have hne : k2.log.col "free_K" ≠ [] := by intro h; rw [h] at hK; simp at hK
  refine ⟨hlen, hK, not_aligned htidy hne (by rw [hK, hlen]; norm_num), ?_⟩
  -- the second row of the short column does not exist
  obtain ⟨kv, hkv, hkey⟩ := List.mem_map.1 ((Log.col_ne_nil htidy "free_K").1 hne)
  have hkl : kv.2.length = 1 := by rw [← Log.col_of_mem htidy.1 hkv, hkey]; exact hK
  have hnone : k2.log.mapM (fun kv => kv.2[1]?) = none := by
    by_contra hcon
    obtain ⟨row, hrow⟩ := Option.ne_none_iff_exists'.1 hcon
    have : ∀ l : List (String × List ℝ), ∀ row, l.mapM (fun kv => kv.2[1]?) = some row → ∀ kv ∈ l, kv.2[1]? ≠ none := by
      intro l
      induction l with
      | nil => intro _ _ _ h; cases h
      | cons a l ih =>
        intro row h kv hm
        rw [List.mapM_cons] at h
        simp only [bind, Option.bind_eq_some_iff] at h
        obtain ⟨b, hb, bs, hbs, -⟩ := h
        rcases List.mem_cons.1 hm with rfl | hm
        · rw [hb]; simp
        · exact ih bs hbs kv hm
    exact this _ _ hrow kv hkv (by rw [List.getElem?_eq_none_iff]; omega)
  unfold saveLogs
  rw [if_neg (by decide)]
  dsimp only
  rw [hlen]
  have : List.mapM (fun i => k2.log.mapM (fun kv => kv.2[i]?)) (List.range 2) = none := by
    change List.mapM _ [0, 1] = none
    rw [List.mapM_cons, List.mapM_cons, hnone]
    cases k2.log.mapM (fun kv => kv.2[0]?) <;> rfl
  rw [this]

/-- helper: two layers with the same id -/
noncomputable def twinJ : Junction ℝ := { demoJ with layers := [quietLayer, quietLayer] }

/-- The assumption of distinct ids in C28 is needed: two layers with the same id write into the same columns, two values per
row. -/
theorem C28_ids_needed : ∃ (j0 : Junction ℝ) (cs : List (Call ℝ)), Constructed j0 ∧ (∀ c ∈ cs, c.energiesOnly false) ∧
    (program cs j0).logLength = 1 ∧ ((program cs j0).log.col "free_mx").length = 2 := by
  have hC : Constructed twinJ := .inl ⟨[quietLayer, quietLayer], by simp [plain, twinJ, demoJ]⟩
  have hR : Reachable twinJ := ⟨twinJ, [], hC, rfl⟩
  obtain ⟨k, hk⟩ := one_step_run twinJ hR (by simp [twinJ, quietLayer, plainOf, Layer.demo])
    (by simp [twinJ, quietLayer, plainOf, Layer.demo, Noisy]) false
  refine ⟨twinJ, [.run 1 1 1 false .RK4], hC, by simp [Call.energiesOnly], ?_⟩
  change ((Call.run 1 1 1 false .RK4).exec twinJ).st.logLength = 1 ∧
    (((Call.run 1 1 1 false .RK4).exec twinJ).st.log.col "free_mx").length = 2
  rw [exec_st hk]
  obtain ⟨N, W, r, m, j1, -, hN, hW, hg, -, hlog, hlen, -⟩ := runSimulation_log (Reachable_inv hR).1 hk
  rw [logged_eq] at hlog hlen
  rw [toUInt_unit] at hN hW
  cases hN; cases hW
  have hs1 : List.Forall₂ Same twinJ.layers j1.layers := by
    have := getSolver_same twinJ .RK4 1; rw [hg] at this; exact this
  have hst : List.Forall₂ Same twinJ.layers (steps r 1 0 (0 + 1) j1).st.layers := by
    rw [steps_eq_evolve]; exact sames_trans hs1 (evolve_same r 1 _ 0 j1)
  refine ⟨by rw [hlen]; rfl, ?_⟩
  have hss : sampleSteps 1 1 = [0] := rfl
  rw [hlog, hss]
  simp only [List.map_cons, List.map_nil, List.flatMap_cons, List.flatMap_nil, List.append_nil]
  rw [Log.col_pushAll]
  have hl0 : twinJ.layers = [quietLayer, quietLayer] := rfl
  have e : quietLayer.id = "free" := by simp [quietLayer, plainOf, Layer.demo]
  rw [hl0] at hst
  generalize (steps r 1 0 (0 + 1) j1).st.layers = ls at hst
  obtain ⟨a, b, rfl, ea, eb⟩ : ∃ a b, ls = [a, b] ∧ a.id = "free" ∧ b.id = "free" := by
    generalize quietLayer = ql at hst e
    rcases hst with _ | ⟨ha, hst⟩
    rcases hst with _ | ⟨hb, hst⟩
    cases hst
    exact ⟨_, _, rfl, by rw [ha.id, e], by rw [hb.id, e]⟩
  have hma := (vals_mag a false).1
  have hmb := (vals_mag b false).1
  rw [ea] at hma; rw [eb] at hmb
  have h1 : "free" ++ "_mx" = "free_mx" := rfl
  rw [h1] at hma hmb
  have hmr : (twinJ.withLayers [a, b]).mrEntries = .ok [] := rfl
  unfold rowOf
  dsimp only
  rw [hmr]
  simp only [List.flatMap_cons, List.flatMap_nil, List.append_nil, Log.vals_append, hma, hmb]
  rfl

/-! ### The hypotheses can be met -/

example : Constructed quietJ ∧ DistinctIds quietJ ∧ (∀ l ∈ quietJ.layers, l.includeSTT = false ∧ l.includeSOT = false) ∧
    (∀ c ∈ ([.run 1 1 1 true .RK4, .clearLog, .run 1 1 1 true .HEUN] : List (Call ℝ)), c.energiesOnly true ∧ c.noTorque) :=
  ⟨quietJ_constructed, by simp [DistinctIds, quietJ], by simp [quietJ, quietLayer, plainOf, Layer.demo],
    by simp [Call.energiesOnly, Call.noTorque]⟩

end Junction
