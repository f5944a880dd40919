import Verif.Spec.Groups
import Verif.Props.Setters
import Verif.Props.StackAlone

/-! # C39: groups of interacting junctions -/

set_option linter.unusedSectionVars false

namespace GroupInteraction
open Spec Junction
variable {T : Type} [Scalar T]

/-! ### Construction -/

/-- helper -/
theorem anyClash_false (ps : List (CVec T)) : anyClash ps = false ↔ ps.Pairwise (fun p q => CVec.eqb p q = false) := by
  induction ps with
  | nil => simp [anyClash]
  | cons p ps ih =>
    unfold anyClash clashes
    rw [List.pairwise_cons, Bool.or_eq_false_iff, ih, List.any_eq_false]
    simp

/-- C39: a group is accepted exactly when there are as many positions as junctions, at least one, and no two positions
compare equal; it then holds the arguments, with the default interaction. -/
theorem C39_accepted (ps : List (CVec T)) (js : List (Junction T)) (id : String) (g : GroupInteraction T) :
    mk' ps js id = .ok g ↔ ps.length = js.length ∧ ps ≠ [] ∧ ps.Pairwise (fun p q => CVec.eqb p q = false) ∧
      g = { topId := id, positions := ps, junctions := js, interaction := Dipole.compute } := by
  unfold mk'
  rw [← anyClash_false]
  by_cases h1 : ps.length = js.length
  · rw [if_neg (by simpa using h1)]
    by_cases h2 : ps = []
    · simp [h2]
    · have h3 : js ≠ [] := by
        rintro rfl
        exact h2 (List.length_eq_zero_iff.1 (by simpa using h1))
      rw [if_neg (by simp [h2, h3])]
      cases hc : anyClash ps
      · simp [h1, h2, eq_comm]
      · simp
  · simp [h1]

/-- C39: over the reals the positions have to be different. -/
theorem C39_accepted_real (ps : List (CVec ℝ)) (js : List (Junction ℝ)) (id : String) :
    (∃ g, mk' ps js id = .ok g) ↔ ps.length = js.length ∧ 1 ≤ js.length ∧ ps.Nodup := by
  have hd : ps.Pairwise (fun p q => CVec.eqb p q = false) ↔ ps.Nodup := by
    have : (fun p q : CVec ℝ => CVec.eqb p q = false) = (· ≠ ·) := by
      funext p q
      cases p; cases q
      simp [CVec.eqb, CVec.mk.injEq]
    rw [this]; rfl
  constructor
  · rintro ⟨g, h⟩
    obtain ⟨h1, h2, h3, -⟩ := (C39_accepted ..).1 h
    refine ⟨h1, ?_, hd.1 h3⟩
    rw [← h1]
    exact List.length_pos_iff.2 h2
  · rintro ⟨h1, h2, h3⟩
    refine ⟨_, (C39_accepted ..).2 ⟨h1, ?_, hd.2 h3, rfl⟩⟩
    rintro rfl
    rw [← h1] at h2
    simp at h2

/-! ### One step -/

/-- helper: the junction without reserved fields -/
def undress (j : Junction T) : Junction T := j.withLayers (j.layers.map (·.setReservedInteractionField .null))

/-- helper -/
def dress (id : String) (h : CVec T) (j : Junction T) : Junction T :=
  mapAddressed id (·.setReservedInteractionField (.ofVec h)) j

/-- helper -/
theorem undress_mapAddressed (id : String) (d : AxialDriver T) (j : Junction T) :
    undress (mapAddressed id (·.setReservedInteractionField d) j) = undress j := by
  unfold undress mapAddressed Junction.withLayers
  congr 1
  rw [List.map_map]
  refine List.map_congr_left fun l _ => ?_
  simp only [Function.comp]
  split <;> rfl

/-- helper -/
theorem undress_getLayer (id : String) (j : Junction T) :
    (undress j).getLayer id = (j.getLayer id).map (·.setReservedInteractionField .null) := by
  unfold Junction.getLayer undress
  rw [Junction.withLayers_layers, List.find?_map]
  rw [show ((fun l : Layer T => l.id == id) ∘ fun l : Layer T => l.setReservedInteractionField AxialDriver.null) = fun l => l.id == id from rfl]
  cases j.layers.find? (fun l => l.id == id) <;> rfl

/-- helper -/
def bare (g : GroupInteraction T) : GroupInteraction T := g.withJunctions (g.junctions.map undress)

/-- helper -/
theorem pairField_bare {g : GroupInteraction T} (hb : Blind g.interaction) (i k : Nat) : g.bare.pairField i k = g.pairField i k := by
  unfold pairField bare withJunctions
  dsimp only
  rw [List.getElem?_map, List.getElem?_map]
  rcases g.positions[i]? with _ | ri
  · rfl
  rcases g.positions[k]? with _ | rk
  · rfl
  rcases g.junctions[i]? with _ | ji
  · rfl
  rcases g.junctions[k]? with _ | jk
  · rfl
  dsimp only [Option.map_some]
  rw [undress_getLayer, undress_getLayer]
  rcases ji.getLayer g.topId with e | li
  · rfl
  rcases jk.getLayer g.topId with e | lk
  · rfl
  exact hb ri rk li lk _ _

/-- helper -/
theorem extraField_bare {g : GroupInteraction T} (hb : Blind g.interaction) (i : Nat) (h : CVec T) (ks : List Nat) :
    g.bare.extraField i h ks = g.extraField i h ks := by
  induction ks generalizing h with
  | nil => rfl
  | cons k ks ih =>
    unfold extraField
    rw [pairField_bare hb, ih]
    cases g.pairField i k with
    | error e => rfl
    | ok f => simp only [ih]

/-- helper -/
theorem pairField_ok (g : GroupInteraction T) (i k : Nat) (v : CVec T) : g.pairField i k = .ok v ↔ ActsWith g k i v := by
  unfold pairField ActsWith memberLayer
  rcases hri : g.positions[i]? with _ | ri
  · simp
  rcases hrk : g.positions[k]? with _ | rk
  · simp
  rcases hi : g.junctions[i]? with _ | ji
  · simp
  rcases hk : g.junctions[k]? with _ | jk
  · simp
  simp only [Option.some.injEq, Option.bind_some, ← getLayer_iff]
  cases hli : ji.getLayer g.topId <;> cases hlk : jk.getLayer g.topId <;> simp

/-- helper -/
theorem extraField_ok (g : GroupInteraction T) (i : Nat) (h v : CVec T) (ks : List Nat) : g.extraField i h ks = .ok v ↔
    ∃ F : Nat → CVec T, (∀ k ∈ ks, k ≠ i → g.pairField i k = .ok (F k)) ∧ v = ((ks.filter (· ≠ i)).map F).foldl (· + ·) h := by
  induction ks generalizing h with
  | nil => exact ⟨fun hv => by cases hv; exact ⟨fun _ => .zero, by simp, rfl⟩, fun ⟨_, _, hv⟩ => by rw [hv]; rfl⟩
  | cons k ks ih =>
    unfold extraField
    by_cases hik : i = k
    · subst hik
      rw [if_pos rfl, ih]
      simp
    · have hki : k ≠ i := fun h => hik h.symm
      rw [if_neg hik]
      cases hp : g.pairField i k with
      | error e => simp [hki, hp]
      | ok f =>
        dsimp only
        rw [ih]
        constructor
        · rintro ⟨F, h1, h2⟩
          by_cases hmem : k ∈ ks
          · have : F k = f := by have := h1 k hmem hki; rw [hp] at this; cases this; rfl
            refine ⟨F, ?_, ?_⟩
            · intro x hx hxi
              rcases List.mem_cons.1 hx with rfl | hx
              · rw [hp, this]
              · exact h1 x hx hxi
            · rw [h2, List.filter_cons_of_pos (by simpa using hki), List.map_cons, List.foldl_cons, this]
          · refine ⟨Function.update F k f, ?_, ?_⟩
            · intro x hx hxi
              rcases List.mem_cons.1 hx with rfl | hx
              · rw [hp]; simp
              · have hxk : x ≠ k := fun hxk => hmem (hxk ▸ hx)
                rw [Function.update_of_ne hxk]
                exact h1 x hx hxi
            · rw [h2, List.filter_cons_of_pos (by simpa using hki), List.map_cons, List.foldl_cons, Function.update_self]
              congr 1
              refine List.map_congr_left fun x hx => ?_
              rw [Function.update_of_ne]
              rintro rfl
              exact hmem (List.mem_of_mem_filter hx)
        · rintro ⟨F, h1, h2⟩
          have : F k = f := by have := h1 k (by simp) hki; rw [hp] at this; cases this; rfl
          refine ⟨F, fun x hx hxi => h1 x (by simp [hx]) hxi, ?_⟩
          rw [h2, List.filter_cons_of_pos (by simpa using hki), List.map_cons, List.foldl_cons, this]

/-- helper -/
theorem fieldAt_iff (g : GroupInteraction T) (i : Nat) (h : CVec T) :
    FieldAt g i h ↔ g.extraField i .zero (List.range g.junctions.length) = .ok h := by
  rw [extraField_ok]
  unfold FieldAt
  simp only [pairField_ok, List.mem_range]

/-- helper -/
theorem bare_set {g : GroupInteraction T} {i : Nat} {j j' : Junction T} (hj : g.junctions[i]? = some j) (h : undress j' = undress j) :
    (g.withJunctions (g.junctions.set i j')).bare = g.bare := by
  unfold bare withJunctions
  dsimp only
  rw [List.map_set, h]
  congr 1
  apply List.ext_getElem?
  intro k
  rw [List.getElem?_set]
  split
  · rename_i hik
    subst hik
    simp only [List.length_map, List.getElem?_map, hj, Option.map_some]
    rw [if_pos (List.getElem?_eq_some_iff.1 hj).1]
  · rfl

/-- helper: what the first loop does -/
theorem setFields_ok {g g' : GroupInteraction T} (hb : Blind g.interaction) {is : List Nat} (hn : is.Nodup)
    (h : g.setFields is = .ok () g') :
    ∃ js, g' = g.withJunctions js ∧ js.length = g.junctions.length ∧ ∀ i j, g.junctions[i]? = some j →
      (i ∉ is → js[i]? = some j) ∧ (i ∈ is → ∃ v a, FieldAt g i v ∧
        j.setLayerReservedInteractionField g.topId (.ofVec v) = .ok () a ∧ js[i]? = some a) := by
  induction is generalizing g with
  | nil =>
    simp only [setFields, Out.ok, Out.mk.injEq, true_and] at h
    subst h
    exact ⟨g.junctions, rfl, rfl, fun i j hj => ⟨fun _ => hj, by simp⟩⟩
  | cons i is ih =>
    obtain ⟨hi, hn⟩ := List.nodup_cons.1 hn
    unfold setFields at h
    split at h
    · simp [Out.ok, Out.fail] at h
    rename_i v hv
    split at h
    · simp [Out.ok, Out.fail] at h
    rename_i j hj
    rcases hs : j.setLayerReservedInteractionField g.topId (.ofVec v) with ⟨_ | u, a⟩
    · rw [hs] at h; simp [Out.ok, Out.fail] at h
    rw [hs] at h
    dsimp only at h
    have hund : undress a = undress j := by
      have := layerSetter_pure j g.topId (·.setReservedInteractionField (.ofVec v))
      unfold Junction.setLayerReservedInteractionField at hs
      rw [this] at hs
      split at hs
      · simp only [Out.ok, Out.mk.injEq] at hs
        rw [← hs.2]
        exact undress_mapAddressed _ _ _
      · simp [Out.fail] at hs
    have hbare := bare_set hj hund
    obtain ⟨js, e1, e2, e3⟩ := ih (g := g.withJunctions (g.junctions.set i a)) hb hn h
    have hlen : (g.withJunctions (g.junctions.set i a)).junctions.length = g.junctions.length := by simp [withJunctions]
    have hfield : ∀ k w, FieldAt (g.withJunctions (g.junctions.set i a)) k w ↔ FieldAt g k w := by
      intro k w
      rw [fieldAt_iff, fieldAt_iff, ← extraField_bare (g := g) hb,
        ← extraField_bare (g := g.withJunctions (g.junctions.set i a)) hb, hbare, hlen]
    refine ⟨js, e1, e2.trans hlen, ?_⟩
    intro k jk hk
    by_cases hki : k = i
    · subst hki
      rw [hj] at hk
      cases hk
      refine ⟨fun h => absurd (List.mem_cons_self ..) h, fun _ => ⟨v, a, (fieldAt_iff ..).2 hv, by rw [hs]; rfl, ?_⟩⟩
      refine (e3 k a ?_).1 hi
      change (g.junctions.set k a)[k]? = some a
      rw [List.getElem?_set_self (List.getElem?_eq_some_iff.1 hj).1]
    · obtain ⟨f1, f2⟩ := e3 k jk (by
        change (g.junctions.set i a)[k]? = some jk
        rw [List.getElem?_set_ne (Ne.symm hki), hk])
      refine ⟨fun hm => f1 (fun h => hm (List.mem_cons_of_mem _ h)), fun hm => ?_⟩
      obtain ⟨w, b, w1, w2, w3⟩ := f2 ((List.mem_cons.1 hm).resolve_left hki)
      exact ⟨w, b, (hfield k w).1 w1, w2, w3⟩

/-- helper -/
theorem setFields_succeeds {g : GroupInteraction T} (hb : Blind g.interaction) {is : List Nat} (hn : is.Nodup)
    (h : ∀ i ∈ is, ∃ j v a, g.junctions[i]? = some j ∧ FieldAt g i v ∧
      j.setLayerReservedInteractionField g.topId (.ofVec v) = .ok () a) : ∃ g', g.setFields is = .ok () g' := by
  induction is generalizing g with
  | nil => exact ⟨g, rfl⟩
  | cons i is ih =>
    obtain ⟨hi, hn⟩ := List.nodup_cons.1 hn
    obtain ⟨j, v, a, h1, h2, h3⟩ := h i (by simp)
    unfold setFields
    rw [(fieldAt_iff ..).1 h2]
    dsimp only
    rw [h1]
    dsimp only
    rw [h3]
    dsimp only [Out.ok]
    have hund : undress a = undress j := by
      unfold Junction.setLayerReservedInteractionField at h3
      rw [layerSetter_pure] at h3
      split at h3
      · simp only [Out.ok, Out.mk.injEq] at h3
        rw [← h3.2]
        exact undress_mapAddressed _ _ _
      · simp [Out.fail, Out.ok] at h3
    have hbare := bare_set h1 hund
    have hlen : (g.withJunctions (g.junctions.set i a)).junctions.length = g.junctions.length := by simp [withJunctions]
    refine ih (g := g.withJunctions (g.junctions.set i a)) hb hn ?_
    intro k hk
    obtain ⟨jk, w, b, w1, w2, w3⟩ := h k (by simp [hk])
    refine ⟨jk, w, b, ?_, ?_, w3⟩
    · change (g.junctions.set i a)[k]? = some jk
      rw [List.getElem?_set_ne (by rintro rfl; exact hi hk), w1]
    · rw [fieldAt_iff, ← extraField_bare (g := g.withJunctions (g.junctions.set i a)) hb, hbare, hlen, extraField_bare (g := g) hb]
      exact (fieldAt_iff ..).1 w2

/-- C39: a step takes every member through its own solver step under the field of all other members, and every such
field is that of the state before the step, whatever the order of the members. -/
theorem C39_simultaneous (g g' : GroupInteraction T) (hb : Blind g.interaction) (r : Runner) (t dt : T) :
    g.step r t dt = .ok () g' ↔ ∃ js, g' = { g with junctions := js } ∧ js.length = g.junctions.length ∧
      ∀ i j, g.junctions[i]? = some j → ∃ v a j', FieldAt g i v ∧
        j.setLayerReservedInteractionField g.topId (.ofVec v) = .ok () a ∧ a.runStep r t dt = .ok () j' ∧ js[i]? = some j' := by
  constructor
  · intro h
    unfold step at h
    obtain ⟨u, g1, h1, h2⟩ := Out.bind_eq_ok h
    obtain ⟨js, rfl, e1, e2⟩ := setFields_ok hb List.nodup_range h1
    rcases ht : Out.traverse (fun _ j => j.runStep r t dt) 0 js with ⟨_ | bs, js'⟩
    · dsimp only [withJunctions] at h2; rw [ht] at h2; simp [Out.ok, Out.fail] at h2
    dsimp only [withJunctions] at h2
    rw [ht] at h2
    simp only [Out.ok, Out.mk.injEq, true_and] at h2
    obtain ⟨-, l2, l3⟩ := Out.traverse_ok _ ht
    refine ⟨js', h2.symm, l2.trans e1, ?_⟩
    intro i j hj
    obtain ⟨v, a, f1, f2, f3⟩ := (e2 i j hj).2 (by simpa using (List.getElem?_eq_some_iff.1 hj).1)
    obtain ⟨b, j', -, k2, k3⟩ := l3 i a f3
    exact ⟨v, a, j', f1, f2, k3, k2⟩
  · rintro ⟨js, rfl, hl, h⟩
    obtain ⟨g1, h1⟩ := setFields_succeeds hb (is := List.range g.junctions.length) List.nodup_range (by
      intro i hi
      have hi : i < g.junctions.length := by simpa using hi
      obtain ⟨v, a, j', f1, f2, -, -⟩ := h i g.junctions[i] (List.getElem?_eq_getElem hi)
      exact ⟨_, v, a, List.getElem?_eq_getElem hi, f1, f2⟩)
    obtain ⟨js1, rfl, e1, e2⟩ := setFields_ok hb List.nodup_range h1
    have key : ∀ (i : Nat) (a : Junction T), js1[i]? = some a → ∃ j', js[i]? = some j' ∧ a.runStep r t dt = .ok () j' := by
      intro i a ha
      have hi : i < g.junctions.length := e1 ▸ (List.getElem?_eq_some_iff.1 ha).1
      obtain ⟨v, a1, j', f1, f2, f3, f4⟩ := h i g.junctions[i] (List.getElem?_eq_getElem hi)
      obtain ⟨w, a2, k1, k2, k3⟩ := (e2 i g.junctions[i] (List.getElem?_eq_getElem hi)).2 (by simpa using hi)
      rw [ha] at k3
      cases k3
      have : v = w := by
        have := (fieldAt_iff ..).1 f1
        rw [(fieldAt_iff ..).1 k1] at this
        cases this; rfl
      subst this
      rw [k2] at f2
      simp only [Out.ok, Out.mk.injEq, true_and] at f2
      subst f2
      exact ⟨j', f4, f3⟩
    unfold step
    rw [h1, Out.bind_ok]
    dsimp only [withJunctions]
    obtain ⟨bs, js', t1, -, t3, t4⟩ := Out.traverse_exists (fun _ (j : Junction T) => j.runStep r t dt)
      (fun _ a _ a' => a.runStep r t dt = .ok () a') 0 js1 (by
      intro k a hk
      obtain ⟨j', -, k2⟩ := key k a hk
      exact ⟨(), j', k2, k2⟩)
    rw [t1]
    dsimp only [Out.ok]
    have : js' = js := by
      obtain ⟨-, l2, l3⟩ := Out.traverse_ok _ t1
      apply List.ext_getElem?
      intro i
      rcases ha : js1[i]? with _ | a
      · have hle : js1.length ≤ i := List.getElem?_eq_none_iff.1 ha
        rw [List.getElem?_eq_none (by omega), List.getElem?_eq_none (by omega)]
      · obtain ⟨j', k1, k2⟩ := key i a ha
        obtain ⟨b, a', -, m2, m3⟩ := l3 i a ha
        rw [k2] at m3
        simp only [Out.ok, Out.mk.injEq] at m3
        rw [k1, m2, m3.2]
    rw [this]

/-- C39: the interactions supplied with the package are blind to the field they write. -/
theorem C39_blind : Blind (Dipole.null : Dipole.Interaction T) ∧ Blind (Dipole.compute : Dipole.Interaction T) ∧
    Blind (Dipole.noumra : Dipole.Interaction T) :=
  ⟨fun _ _ _ _ _ _ => rfl, fun _ _ _ _ _ _ => rfl, fun _ _ _ _ _ _ => rfl⟩

end GroupInteraction
