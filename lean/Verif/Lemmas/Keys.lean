import Verif.Lemmas.Log
import Verif.Spec.Runs

/-! Helper lemmas: the column names of a junction log do not collide. -/

set_option linter.unusedSectionVars false

namespace Keys

/-- an underscore followed by no underscore -/
def Suf (s : String) : Prop := ∃ y, s.toList = '_' :: y ∧ '_' ∉ y

theorem list_split {α : Type} {c : α} {x x' y y' : List α} (hy : c ∉ y) (hy' : c ∉ y')
    (h : x ++ c :: y = x' ++ c :: y') : x = x' ∧ y = y' := by
  rcases List.append_eq_append_iff.1 h with ⟨a, h1, h2⟩ | ⟨a, h1, h2⟩
  · cases a with
    | nil => simp_all
    | cons b a =>
      simp only [List.cons_append, List.cons.injEq] at h2
      obtain ⟨rfl, h2⟩ := h2
      exact absurd (h2 ▸ by simp) hy
  · cases a with
    | nil => simp_all
    | cons b a =>
      simp only [List.cons_append, List.cons.injEq] at h2
      obtain ⟨rfl, h2⟩ := h2
      exact absurd (h2 ▸ by simp) hy'

theorem split {a b s s' : String} (hs : Suf s) (hs' : Suf s') (h : a ++ s = b ++ s') : a = b ∧ s = s' := by
  obtain ⟨y, h1, h2⟩ := hs
  obtain ⟨y', h1', h2'⟩ := hs'
  have : (a ++ s).toList = (b ++ s').toList := by rw [h]
  rw [String.toList_append, String.toList_append, h1, h1'] at this
  obtain ⟨e1, e2⟩ := list_split h2 h2' this
  exact ⟨String.toList_injective e1, String.toList_injective (by rw [h1, h1', e2])⟩

/-- the number of underscores -/
def us (s : String) : Nat := s.toList.count '_'

theorem us_append (a b : String) : us (a ++ b) = us a + us b := by simp [us, String.toList_append, List.count_append]

theorem us_suf {s : String} (h : Suf s) : us s = 1 := by
  obtain ⟨y, h1, h2⟩ := h
  unfold us
  rw [h1, List.count_cons_self, List.count_eq_zero.2 h2]

/-- suffixes of the columns of a layer -/
def sufs (sot cur en : Bool) : List String :=
  (if en then ["_K", "_Jbottom", "_Jtop", "_I"] ++
    (["_Hextx", "_Hiecx", "_Hanisx", "_Hdemagx", "_Hthx"] ++ if sot then ["_Hflx", "_Hdlx"] else []) ++
    (["_Hexty", "_Hiecy", "_Hanisy", "_Hdemagy", "_Hthy"] ++ if sot then ["_Hfly", "_Hdly"] else []) ++
    (["_Hextz", "_Hiecz", "_Hanisz", "_Hdemagz", "_Hthz"] ++ if sot then ["_Hflz", "_Hdlz"] else []) ++
    (if cur then ["_I"] else []) else []) ++ ["_mx", "_my", "_mz"]

theorem sufs_ok (sot cur en : Bool) (s : String) (h : s ∈ sufs sot cur en) : Suf s := by
  have : ∀ s ∈ sufs sot cur en, s.toList.head? = some '_' ∧ '_' ∉ s.toList.tail := by
    clear h; revert sot cur en; decide
  obtain ⟨h1, h2⟩ := this s h
  refine ⟨s.toList.tail, ?_, h2⟩
  cases hl : s.toList with
  | nil => rw [hl] at h1; cases h1
  | cons a l => rw [hl] at h1; simp_all

theorem sufs_nodup (sot cur en : Bool) (h : en = true → cur = false) : (sufs sot cur en).Nodup := by
  cases en
  · revert sot cur h; decide
  · cases h rfl; revert sot; decide

end Keys

namespace Junction
open Spec Layer Keys
variable {T : Type} [Scalar T]

theorem layerEntries_keys (l : Layer T) (en : Bool) : (layerEntries l en).map Prod.fst =
    (sufs l.includeSOT (l.includeSTT || l.includeSOT) en).map (l.id ++ ·) := by
  unfold layerEntries energyComponent sufs
  cases en <;> cases l.includeSOT <;> cases l.includeSTT <;> simp [String.append_assoc]

/-- what the constructors guarantee about the name of the resistance column -/
def RtagOk (j : Junction T) : Prop := j.mrMode = .CLASSIC → ∀ a b r, j.layers.map Layer.id = a :: b :: r →
  r = [] ∧ j.Rtag = "R_" ++ a ++ "_" ++ b

/-- names of the resistance columns -/
def mrKeys (j : Junction T) (ls : List (Layer T)) : List String :=
  match j.mrMode, ls with
  | .CLASSIC, [_] => ["R"]
  | .CLASSIC, _ :: _ :: _ => [j.Rtag]
  | .STRIP, _ => ["Rx", "Ry", "Rz"]
  | _, _ => []

theorem mr_keys (j : Junction T) (ls : List (Layer T)) (h : (j.withLayers ls).MrOk) :
    ∃ mr, (j.withLayers ls).mrEntries = .ok mr ∧ mr.map Prod.fst = mrKeys j ls := by
  obtain ⟨mr, hm⟩ := mrEntries_ok _ h
  refine ⟨mr, hm, ?_⟩
  unfold mrEntries at hm
  unfold mrKeys
  change (match j.mrMode, ls with | .CLASSIC, [l0] => _ | .CLASSIC, l0 :: l1 :: _ => _ | .STRIP, _ => _ | _, _ => _) = _ at hm
  rcases hmode : j.mrMode with _ | _ | _ <;> rw [hmode] at hm
  · cases hm; rfl
  · match ls, hm with
    | [], hm => cases hm; rfl
    | [_], hm => cases hm; rfl
    | _ :: _ :: _, hm => cases hm; rfl
  · dsimp only at hm ⊢
    unfold stripMagnetoResistance at hm
    split at hm
    · rename_i h1
      split at h1
      · cases h1; cases hm; rfl
      · cases h1
    · rename_i h1 h2
      split at h2
      · cases h2; exact absurd rfl (h1 _ _ _ _)
      · cases h2
    · cases hm

theorem rowOf_eq (j : Junction T) (en : Bool) (ls : List (Layer T)) (t : T) (h : (j.withLayers ls).MrOk) :
    ∃ mr, (j.withLayers ls).mrEntries = .ok mr ∧ mr.map Prod.fst = mrKeys j ls ∧
      rowOf j en (ls, t) = ls.flatMap (layerEntries · en) ++ mr ++ [("time", t)] := by
  obtain ⟨mr, h1, h2⟩ := mr_keys j ls h
  refine ⟨mr, h1, h2, ?_⟩
  unfold rowOf
  rw [h1]

theorem mem_layer_keys {ls : List (Layer T)} {en : Bool} {key : String}
    (h : key ∈ (ls.flatMap (layerEntries · en)).map Prod.fst) :
    ∃ l ∈ ls, ∃ s, Suf s ∧ key = l.id ++ s := by
  rw [List.map_flatMap, List.mem_flatMap] at h
  obtain ⟨l, hl, h⟩ := h
  rw [layerEntries_keys, List.mem_map] at h
  obtain ⟨s, hs, rfl⟩ := h
  exact ⟨l, hl, s, sufs_ok _ _ _ _ hs, rfl⟩

theorem layers_nodup {ls : List (Layer T)} {en : Bool} (hd : (ls.map Layer.id).Nodup)
    (he : en = true → ∀ l ∈ ls, l.includeSTT = false ∧ l.includeSOT = false) :
    ((ls.flatMap (layerEntries · en)).map Prod.fst).Nodup := by
  induction ls with
  | nil => exact List.nodup_nil
  | cons l ls ih =>
    simp only [List.map_cons, List.nodup_cons] at hd
    rw [List.flatMap_cons, List.map_append, List.nodup_append]
    refine ⟨?_, ih hd.2 (fun h l hl => he h l (List.mem_cons_of_mem _ hl)), ?_⟩
    · rw [layerEntries_keys]
      refine (sufs_nodup _ _ _ ?_).map (fun s s' h => (String.append_right_inj _).1 h)
      intro h
      obtain ⟨h1, h2⟩ := he h l (by simp)
      rw [h1, h2]; rfl
    · rintro a ha b hb rfl
      obtain ⟨l', hl', s', hs', rfl⟩ := mem_layer_keys hb
      rw [layerEntries_keys, List.mem_map] at ha
      obtain ⟨s, hs, h⟩ := ha
      have := (Keys.split (sufs_ok _ _ _ _ hs) hs' h).1
      exact hd.1 (List.mem_map.2 ⟨l', hl', this.symm⟩)

theorem us_zero {s : String} (h : s = "time" ∨ s = "R" ∨ s = "Rx" ∨ s = "Ry" ∨ s = "Rz") : us s = 0 := by
  rcases h with rfl | rfl | rfl | rfl | rfl <;> decide

/-- the resistance columns and "time" are no layer columns and differ from each other -/
theorem mrKeys_ok (j : Junction T) (ls : List (Layer T)) (hr : j.RtagOk) (hi : j.layers.map Layer.id = ls.map Layer.id) :
    (mrKeys j ls).Nodup ∧ "time" ∉ mrKeys j ls ∧ ∀ l ∈ ls, ∀ s, Suf s → l.id ++ s ∉ mrKeys j ls := by
  unfold mrKeys
  split
  · refine ⟨by simp, by simp, fun l _ s hs h => ?_⟩
    simp only [List.mem_singleton] at h
    have := us_append l.id s
    rw [h, us_suf hs, us_zero (by simp)] at this
    omega
  · rename_i a b r hm
    obtain ⟨hr0, ht⟩ := hr hm a.id b.id (r.map Layer.id) (by rw [hi]; rfl)
    have hr0 : r = [] := List.map_eq_nil_iff.1 hr0
    subst hr0
    rw [ht]
    have hu : us ("R_" ++ a.id ++ "_" ++ b.id) = us a.id + us b.id + 2 := by
      rw [us_append, us_append, us_append]
      have h1 : us "R_" = 1 := by decide
      have h2 : us "_" = 1 := by decide
      omega
    refine ⟨by simp, ?_, ?_⟩
    · intro h
      simp only [List.mem_singleton] at h
      rw [← h, us_zero (by simp)] at hu
      omega
    · intro l hl s hs h
      simp only [List.mem_singleton] at h
      have hx := us_append l.id s
      rw [h, us_suf hs, hu] at hx
      simp only [List.mem_cons, List.not_mem_nil, or_false] at hl
      rcases hl with rfl | rfl <;> omega
  · refine ⟨by decide, by decide, fun l _ s hs h => ?_⟩
    have := us_append l.id s
    rw [us_suf hs, us_zero (by revert h; simp; tauto)] at this
    omega
  · simp

theorem row_nodup (j : Junction T) {en : Bool} {ls : List (Layer T)} {t : T} (hm : (j.withLayers ls).MrOk) (hr : j.RtagOk)
    (hi : j.layers.map Layer.id = ls.map Layer.id) (hd : (ls.map Layer.id).Nodup)
    (he : en = true → ∀ l ∈ ls, l.includeSTT = false ∧ l.includeSOT = false) :
    ((rowOf j en (ls, t)).map Prod.fst).Nodup := by
  obtain ⟨mr, h1, h2, h3⟩ := rowOf_eq j en ls t hm
  obtain ⟨k1, k2, k3⟩ := mrKeys_ok j ls hr hi
  rw [h3, List.map_append, List.map_append, h2]
  refine List.nodup_append.2 ⟨List.nodup_append.2 ⟨layers_nodup hd he, k1, ?_⟩, by simp, ?_⟩
  · rintro a ha b hb rfl
    obtain ⟨l, hl, s, hs, rfl⟩ := mem_layer_keys ha
    exact k3 l hl s hs hb
  · rintro a ha b hb rfl
    simp only [List.map_cons, List.map_nil, List.mem_singleton] at hb
    subst hb
    rcases List.mem_append.1 ha with ha | ha
    · obtain ⟨l, hl, s, hs, h⟩ := mem_layer_keys ha
      have := us_append l.id s
      rw [← h, us_suf hs, us_zero (by simp)] at this
      omega
    · exact k2 ha

/-- the time column of one row -/
theorem row_time (j : Junction T) {en : Bool} {ls : List (Layer T)} {t : T} (hm : (j.withLayers ls).MrOk) (hr : j.RtagOk)
    (hi : j.layers.map Layer.id = ls.map Layer.id) : Log.vals (rowOf j en (ls, t)) "time" = [t] := by
  obtain ⟨mr, h1, h2, h3⟩ := rowOf_eq j en ls t hm
  obtain ⟨k1, k2, k3⟩ := mrKeys_ok j ls hr hi
  rw [h3, Log.vals_append, Log.vals_append, Log.vals_none, Log.vals_none (by rw [h2]; exact k2)]
  · simp [Log.vals]
  · intro h
    obtain ⟨l, hl, s, hs, h⟩ := mem_layer_keys h
    have := us_append l.id s
    rw [← h, us_suf hs, us_zero (by simp)] at this
    omega

/-- the entries of other layers do not touch the columns of a layer -/
theorem other_layers {ls : List (Layer T)} {en : Bool} {id s : String} (hs : Suf s) (h : id ∉ ls.map Layer.id) :
    Log.vals (ls.flatMap (layerEntries · en)) (id ++ s) = [] := by
  refine Log.vals_none fun hk => ?_
  obtain ⟨l, hl, s', hs', he⟩ := mem_layer_keys hk
  exact h (List.mem_map.2 ⟨l, hl, (Keys.split hs hs' he).1.symm⟩)

theorem one_layer {ls : List (Layer T)} {en : Bool} {s : String} (hs : Suf s) (hd : (ls.map Layer.id).Nodup) {l : Layer T}
    (hl : l ∈ ls) : Log.vals (ls.flatMap (layerEntries · en)) (l.id ++ s) = Log.vals (layerEntries l en) (l.id ++ s) := by
  induction ls with
  | nil => cases hl
  | cons a ls ih =>
    simp only [List.map_cons, List.nodup_cons] at hd
    rw [List.flatMap_cons, Log.vals_append]
    rcases List.mem_cons.1 hl with rfl | hl
    · rw [other_layers hs hd.1, List.append_nil]
    · rw [ih hd.2 hl]
      have : l.id ∉ [a].map Layer.id := by
        simp only [List.map_cons, List.map_nil, List.mem_singleton]
        intro h; exact hd.1 (h ▸ List.mem_map.2 ⟨l, hl, rfl⟩)
      have := other_layers (en := en) hs this
      simp only [List.flatMap_cons, List.flatMap_nil, List.append_nil] at this
      rw [this]; rfl

/-- the values a row holds for a column of a layer are those of that layer -/
theorem row_layer (j : Junction T) {en : Bool} {ls : List (Layer T)} {t : T} (hm : (j.withLayers ls).MrOk) (hr : j.RtagOk)
    (hi : j.layers.map Layer.id = ls.map Layer.id) (hd : (ls.map Layer.id).Nodup) {l : Layer T} (hl : l ∈ ls) {s : String}
    (hs : Suf s) : Log.vals (rowOf j en (ls, t)) (l.id ++ s) = Log.vals (layerEntries l en) (l.id ++ s) := by
  obtain ⟨mr, h1, h2, h3⟩ := rowOf_eq j en ls t hm
  obtain ⟨k1, k2, k3⟩ := mrKeys_ok j ls hr hi
  rw [h3, Log.vals_append, Log.vals_append, one_layer hs hd hl, Log.vals_none (ps := mr) (by rw [h2]; exact k3 l hl s hs),
    Log.vals_none (ps := [("time", t)])]
  · simp
  · intro h
    simp only [List.map_cons, List.map_nil, List.mem_singleton] at h
    have := us_append l.id s
    rw [h, us_suf hs, us_zero (by simp)] at this
    omega

theorem suf_mx : Suf "_mx" := ⟨['m', 'x'], by decide, by decide⟩
theorem suf_my : Suf "_my" := ⟨['m', 'y'], by decide, by decide⟩
theorem suf_mz : Suf "_mz" := ⟨['m', 'z'], by decide, by decide⟩

theorem vals_mag (l : Layer T) (en : Bool) : Log.vals (layerEntries l en) (l.id ++ "_mx") = [l.mag.x] ∧
    Log.vals (layerEntries l en) (l.id ++ "_my") = [l.mag.y] ∧ Log.vals (layerEntries l en) (l.id ++ "_mz") = [l.mag.z] := by
  unfold layerEntries energyComponent
  cases en <;> cases l.includeSOT <;> cases l.includeSTT <;>
    simp [Log.vals_cons, Log.vals_nil, String.append_assoc]

theorem Constructed_inv {j : Junction T} (h : Constructed j) :
    j.MrOk ∧ j.RtagOk ∧ j.log = [] ∧ j.logLength = 0 ∧ j.layers ≠ [] := by
  rcases h with ⟨ls, h⟩ | ⟨ls, a, b, h⟩ | ⟨ls, a, b, c, d, e, f, g, h⟩
  · unfold plain at h
    split at h
    · cases h
    · rename_i hn
      cases h
      exact ⟨by (intro h; cases h), by (intro h; cases h), rfl, rfl, by rintro (rfl : ls = []); exact hn rfl⟩
  · unfold classic plain at h
    match ls, h with
    | [], h => simp at h
    | [l], h =>
      simp only [List.length_cons, List.length_nil, Nat.zero_add, one_ne_zero, if_false] at h
      split at h
      · cases h
      · cases h
        exact ⟨by (intro h; cases h), by (intro _ a b r h; cases h), rfl, rfl, by simp⟩
    | [l0, l1], h =>
      simp only [List.length_cons, List.length_nil, Nat.zero_add, Nat.reduceAdd, OfNat.ofNat_ne_zero, if_false] at h
      cases h
      exact ⟨by (intro h; cases h), by (intro _ a b r h; cases h; exact ⟨rfl, rfl⟩), rfl, rfl, by simp⟩
    | _ :: _ :: _ :: _, h => simp at h
  · unfold strip at h
    split at h
    · cases h
    · rename_i hn
      split at h
      · cases h
      · rename_i hl
        push Not at hl
        obtain ⟨h1, h2, h3, h4, h5, h6, h7⟩ := hl
        cases h
        refine ⟨fun _ => ⟨h1.symm, h2.symm, h3.symm, h4.symm, h6.symm, h7.symm, h5.symm⟩, by (intro h; cases h), rfl, rfl, ?_⟩
        rintro (rfl : ls = []); exact hn rfl

theorem RtagOk.params {j k : Junction T} (h : j.RtagOk) (hp : j.SameParams k) (hi : k.layers.map Layer.id = j.layers.map Layer.id) :
    k.RtagOk := by
  obtain ⟨a1, a2, a3, a4, a5, a6, a7, a8, a9, a10, a11, a12⟩ := hp
  intro hm a b r hk
  rw [← a11]
  exact h (a1.trans hm) a b r (hi ▸ hk)

theorem Reachable_inv {j : Junction T} (h : Reachable j) : j.MrOk ∧ j.RtagOk := by
  obtain ⟨j0, cs, h0, rfl⟩ := h
  obtain ⟨h1, h2, -⟩ := Constructed_inv h0
  exact ⟨(program_params cs j0).mrOk h1, h2.params (program_params cs j0) (program_ids cs j0)⟩

end Junction
