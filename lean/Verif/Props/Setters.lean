import Verif.Spec.Setters
import Verif.Lemmas.Run
import Verif.Props.UnitLength

/-!
# C21, C22, C23: junction-level setters

Every scalar type unless stated.
-/

set_option linter.unusedSectionVars false

namespace Junction
open Spec
variable {T : Type} [Scalar T]

/-- helper -/
theorem setLoop_pure (id : String) (f : Layer T → Layer T) (ls : List (Layer T)) :
    setLoop id (pureSetter f) ls =
      .ok (decide (∃ l ∈ ls, Addressed id l)) (ls.map fun l => if Addressed id l then f l else l) := by
  induction ls with
  | nil => simp [setLoop]
  | cons l ls ih =>
    unfold setLoop
    simp only [pureSetter, Out.ok] at ih ⊢
    rw [ih]
    by_cases h : l.id = id ∨ id = "all"
    · have h' : Addressed id l := h
      simp [h, h']
    · have h' : ¬Addressed id l := h
      simp [h, h']

/-- helper -/
theorem layerSetter_pure (j : Junction T) (id : String) (f : Layer T → Layer T) :
    j.layerSetter id (pureSetter f) =
      if ∃ l ∈ j.layers, Addressed id l then .ok () (mapAddressed id f j) else .fail .layerNotFound j := by
  unfold layerSetter
  rw [setLoop_pure]
  by_cases h : ∃ l ∈ j.layers, Addressed id l
  · simp [h, Out.ok, mapAddressed]
  · rw [if_neg h]
    simp only [Out.ok, h, decide_false, Out.fail, Out.mk.injEq, true_and]
    push Not at h
    have : (j.layers.map fun l => if Addressed id l then f l else l) = j.layers := by
      conv_rhs => rw [← List.map_id j.layers]
      apply List.map_congr_left
      intro l hl
      simp [h l hl]
    rw [this]

/-- C21: with at least one addressed layer, each driver setter succeeds and replaces exactly that driver in exactly
the addressed layers (temperature setters also set their flags). -/
theorem C21_setters (j : Junction T) (id : String) (h : ∃ l ∈ j.layers, Addressed id l) :
    (∀ d, j.setLayerTemperatureDriver id d =
      .ok () (mapAddressed id (fun l => { l with temperatureDriver := d, temperatureSet := true }) j)) ∧
    (∀ d, j.setLayerNonStochasticLangevinDriver id d = .ok () (mapAddressed id (fun l =>
      { l with temperatureDriver := d, temperatureSet := false, nonStochasticTempSet := true }) j)) ∧
    (∀ d, j.setLayerAnisotropyDriver id d = .ok () (mapAddressed id (fun l => { l with anisotropyDriver := d }) j)) ∧
    (∀ d, j.setLayerExternalFieldDriver id d = .ok () (mapAddressed id (fun l => { l with externalFieldDriver := d }) j)) ∧
    (∀ d, j.setLayerOerstedFieldDriver id d = .ok () (mapAddressed id (fun l => { l with HoeDriver := d }) j)) ∧
    (∀ d, j.setLayerCurrentDriver id d = .ok () (mapAddressed id (fun l => { l with currentDriver := d }) j)) ∧
    (∀ d, j.setLayerReservedInteractionField id d = .ok () (mapAddressed id (fun l => { l with HreservedDriver := d }) j)) ∧
    (∀ d, j.setLayerHdmiDriver id d = .ok () (mapAddressed id (fun l => { l with HdmiDriver := d }) j)) := by
  refine ⟨?_, ?_, ?_, ?_, ?_, ?_, ?_, ?_⟩ <;> intro d <;> exact (layerSetter_pure j id _).trans (if_pos h)

/-- helper: setters that may throw, when they do not on the addressed layers -/
theorem setLoop_ok (id : String) (f : Layer T → Out (Layer T) Unit) (g : Layer T → Layer T) (ls : List (Layer T))
    (h : ∀ l ∈ ls, Addressed id l → f l = .ok () (g l)) :
    setLoop id f ls = setLoop id (pureSetter g) ls := by
  induction ls with
  | nil => rfl
  | cons l ls ih =>
    unfold setLoop
    rw [ih (fun x hx => h x (by simp [hx]))]
    by_cases hl : l.id = id ∨ id = "all"
    · rw [if_pos hl, if_pos hl, h l (by simp) hl]; rfl
    · rw [if_neg hl, if_neg hl]

/-- C21 for the torque setters: with at least one addressed layer and none of the addressed ones made for STT or for
static torques, exactly the driver and the SOT flag of the addressed layers are set. -/
theorem C21_torque_setters (j : Junction T) (id : String) (d : ScalarDriver T) (h : ∃ l ∈ j.layers, Addressed id l)
    (hs : ∀ l ∈ j.layers, Addressed id l → l.includeSTT = false ∧ l.dynamicSOT = true) :
    j.setLayerDampingLikeTorqueDriver id d = .ok () (mapAddressed id
      (fun l => { l with includeSOT := true, dampingLikeTorqueDriver := d }) j) ∧
    j.setLayerFieldLikeTorqueDriver id d = .ok () (mapAddressed id
      (fun l => { l with includeSOT := true, fieldLikeTorqueDriver := d }) j) := by
  constructor
  · have := layerSetter_pure j id (fun l => { l with includeSOT := true, dampingLikeTorqueDriver := d })
    rw [if_pos h] at this
    rw [← this]
    unfold setLayerDampingLikeTorqueDriver layerSetter
    rw [setLoop_ok id _ (fun l => { l with includeSOT := true, dampingLikeTorqueDriver := d })]
    intro l hl ha
    obtain ⟨h1, h2⟩ := hs l hl ha
    simp [Layer.setDampingLikeTorqueDriver, h1, h2]
  · have := layerSetter_pure j id (fun l => { l with includeSOT := true, fieldLikeTorqueDriver := d })
    rw [if_pos h] at this
    rw [← this]
    unfold setLayerFieldLikeTorqueDriver layerSetter
    rw [setLoop_ok id _ (fun l => { l with includeSOT := true, fieldLikeTorqueDriver := d })]
    intro l hl ha
    obtain ⟨h1, h2⟩ := hs l hl ha
    simp [Layer.setFieldLikeTorqueDriver, h1, h2]

/-- C21 for the magnetisation: the normalised vector goes to exactly the addressed layers. -/
theorem C21_magnetisation (j : Junction T) (id : String) (m : CVec T) (h : ∃ l ∈ j.layers, Addressed id l)
    (hm : Scalar.eqb m.length 0 = false) :
    j.setLayerMagnetisation id m = .ok () (mapAddressed id (fun l => { l with mag := m.normalize }) j) := by
  have := layerSetter_pure j id (fun l => { l with mag := m.normalize })
  rw [if_pos h] at this
  rw [← this]
  unfold setLayerMagnetisation layerSetter
  rw [setLoop_ok id _ (fun l => { l with mag := m.normalize })]
  intro l hl ha
  simp [Layer.setMagnetisation, hm, Layer.setMag]

/-- helper -/
theorem setLoop_none (id : String) (f : Layer T → Out (Layer T) Unit) (ls : List (Layer T))
    (h : ∀ l ∈ ls, ¬Addressed id l) : setLoop id f ls = .ok false ls := by
  induction ls with
  | nil => rfl
  | cons l ls ih =>
    unfold setLoop
    have h0 : ¬(l.id = id ∨ id = "all") := h l (by simp)
    rw [if_neg h0, ih (fun x hx => h x (by simp [hx]))]
    rfl

/-- helper -/
theorem updateFirst_none (id : String) (f : Layer T → Out (Layer T) Unit) (ls : List (Layer T))
    (h : ∀ l ∈ ls, l.id ≠ id) : updateFirst id f ls = .fail .layerNotFound ls := by
  induction ls with
  | nil => rfl
  | cons l ls ih =>
    unfold updateFirst
    rw [if_neg (h l (by simp)), ih (fun x hx => h x (by simp [hx]))]
    rfl

/-- The calls that address layers by one id, with that id. -/
def _root_.Spec.Call.layerId : Call T → Option String
  | .temperature id _ | .nonStochastic id _ | .anisotropy id _ | .externalField id _ | .oersted id _ | .current id _
  | .dampingLike id _ | .fieldLike id _ | .reserved id _ | .hdmi id _ | .magnetisation id _ | .alternativeSTT id _
  | .oneFNoise id | .referenceLayer id _ | .referenceType id _ => some id
  | _ => none

/-- C21: a layer setter of any kind raises without any change when no layer matches. -/
theorem C21_not_found (j : Junction T) (id : String) (c : Call T) (hc : c.layerId = some id)
    (hall : id ≠ "all") (h : ∀ l ∈ j.layers, l.id ≠ id) : c.exec j = .fail .layerNotFound j := by
  have hA : ∀ l ∈ j.layers, ¬Addressed id l := by
    intro l hl q; rcases q with q | q
    · exact h l hl q
    · exact hall q
  have e1 : ∀ f, j.layerSetter id f = .fail .layerNotFound j := by
    intro f; unfold layerSetter; rw [setLoop_none id f _ hA]; rfl
  have e2 : ∀ f, j.firstOrAll id f = .fail .layerNotFound j := by
    intro f; unfold firstOrAll; rw [if_neg hall, updateFirst_none id f _ h]; rfl
  cases c <;> simp only [Call.layerId, Option.some.injEq, reduceCtorEq] at hc <;> subst hc <;>
    first | exact e1 _ | exact e2 _

/-- helper -/
theorem updateFirst_pure (id : String) (f : Layer T → Layer T) (ls : List (Layer T)) (hid : ∃ l ∈ ls, l.id = id)
    (hd : (ls.map Layer.id).Nodup) :
    updateFirst id (pureSetter f) ls = .ok () (ls.map fun l => if l.id = id then f l else l) := by
  induction ls with
  | nil => simp at hid
  | cons l ls ih =>
    unfold updateFirst
    by_cases h : l.id = id
    · rw [if_pos h]
      simp only [pureSetter, Out.ok, List.map_cons, if_pos h, Out.mk.injEq, List.cons.injEq, true_and]
      conv_lhs => rw [← List.map_id ls]
      apply List.map_congr_left
      intro x hx
      have : x.id ≠ id := by
        intro q
        simp only [List.map_cons, List.nodup_cons] at hd
        exact hd.1 (by rw [h, ← q]; exact List.mem_map_of_mem hx)
      simp [this]
    · rw [if_neg h]
      simp only [List.map_cons, List.nodup_cons] at hd
      obtain ⟨x, hx, hxid⟩ := hid
      have hx' : x ∈ ls := by
        rcases List.mem_cons.1 hx with rfl | hx
        · exact absurd hxid h
        · exact hx
      rw [ih ⟨x, hx', hxid⟩ hd.2]
      simp [Out.ok, h]

/-- helper -/
theorem firstOrAll_pure (j : Junction T) (id : String) (f : Layer T → Layer T) (hd : DistinctIds j)
    (h : id = "all" ∨ ∃ l ∈ j.layers, l.id = id) :
    j.firstOrAll id (pureSetter f) = .ok () (mapAddressed id f j) := by
  unfold firstOrAll
  by_cases ha : id = "all"
  · rw [if_pos ha]
    have := Out.traverse_of_ok (fun (_ : Nat) (l : Layer T) => pureSetter f l) (fun _ _ => ()) (fun _ l => f l) 0 j.layers
      (fun k a _ => rfl)
    rw [this]
    simp only [Out.ok, mapAddressed, Out.mk.injEq, true_and]
    have e : (j.layers.map fun l => if Addressed id l then f l else l) = j.layers.map f := by
      apply List.map_congr_left; intro l _; simp [Addressed, ha]
    rw [e]
    congr 1
    exact List.mapIdx_eq_iff.2 (by intro i; simp)
  · rw [if_neg ha]
    have h' := h.resolve_left ha
    rw [updateFirst_pure id f _ h' hd]
    simp only [Out.ok, mapAddressed, Out.mk.injEq, true_and]
    congr 1
    apply List.map_congr_left
    intro l _
    simp [Addressed, ha]

/-- C21 for the setters that go through `getLayer`: for junctions with distinct ids they act on exactly the addressed
layer too. Missing for the full claim: with repeated ids they act on the first match only
(`C21_first_match_refuted`). -/
theorem C21_first_match_partial (j : Junction T) (id : String) (hd : DistinctIds j)
    (h : id = "all" ∨ ∃ l ∈ j.layers, l.id = id) :
    (∀ b, j.setLayerAlternativeSTT id b = .ok () (mapAddressed id (fun l => { l with alternativeSTTSet := b }) j)) ∧
    j.setLayerOneFNoise id = .ok () (mapAddressed id (fun l => { l with pinkNoiseSet := true }) j) ∧
    (∀ v, j.setLayerReferenceLayer id v =
      .ok () (mapAddressed id (fun l => { l with referenceLayer := v, referenceType := .FIXED }) j)) ∧
    (∀ r, r ≠ .FIXED → j.setLayerReferenceType id r =
      .ok () (mapAddressed id (fun l => { l with referenceType := r }) j)) := by
  refine ⟨fun b => firstOrAll_pure j id _ hd h, firstOrAll_pure j id _ hd h, fun v => firstOrAll_pure j id _ hd h, ?_⟩
  intro r hr
  have : (fun l : Layer T => l.setReferenceType r) = pureSetter (fun l => { l with referenceType := r }) := by
    funext l; simp [Layer.setReferenceType, hr, pureSetter]
  unfold setLayerReferenceType
  rw [this]
  exact firstOrAll_pure j id _ hd h

/-- helper: the layer is the first of the junction with the id -/
def FirstNamed (j : Junction T) (id : String) (l : Layer T) : Prop :=
  ∃ k : Nat, j.layers[k]? = some l ∧ l.id = id ∧ ∀ (i : Nat) (l' : Layer T), i < k → j.layers[i]? = some l' → l'.id ≠ id

/-- C21 for the getters: they read the first layer with the id (the only one, if ids are distinct), and raise exactly if
there is none; the ids are listed in the order of the layers. -/
theorem C21_getters (j : Junction T) (id : String) :
    (∀ l, j.getLayer id = .ok l ↔ FirstNamed j id l) ∧
    (∀ l, FirstNamed j id l → j.getLayerMagnetisation id = .ok l.mag ∧ j.getLayerReferenceType id = .ok l.referenceType) ∧
    ((∀ l ∈ j.layers, l.id ≠ id) → j.getLayer id = .error .layerNotFound ∧
      j.getLayerMagnetisation id = .error .layerNotFound ∧ j.getLayerReferenceType id = .error .layerNotFound) ∧
    (DistinctIds j → ∀ l ∈ j.layers, l.id = id → j.getLayer id = .ok l) ∧
    ∀ (k : Nat) (l : Layer T), j.layers[k]? = some l → j.getLayerIds[k]? = some l.id := by
  have key : ∀ l, j.getLayer id = .ok l ↔ FirstNamed j id l := by
    intro l
    have h1 : j.getLayer id = .ok l ↔ j.layers.find? (fun l => l.id == id) = some l := by
      unfold getLayer
      cases j.layers.find? (fun l => l.id == id) <;> simp
    rw [h1, List.find?_eq_some_iff_getElem]
    constructor
    · rintro ⟨hp, k, hk, hl, hmin⟩
      refine ⟨k, by rw [List.getElem?_eq_getElem hk, hl], by simpa using hp, ?_⟩
      intro i l' hi hl'
      obtain ⟨hi', rfl⟩ := List.getElem?_eq_some_iff.1 hl'
      simpa using hmin i hi
    · rintro ⟨k, hl, hp, hmin⟩
      obtain ⟨hk, hl⟩ := List.getElem?_eq_some_iff.1 hl
      refine ⟨by simpa using hp, k, hk, hl, ?_⟩
      intro i hi
      simpa using hmin i _ hi (List.getElem?_eq_getElem (hi.trans hk))
  refine ⟨key, ?_, ?_, ?_, ?_⟩
  · intro l hl
    have := (key l).2 hl
    simp [getLayerMagnetisation, getLayerReferenceType, this]
  · intro h
    have : j.getLayer id = .error .layerNotFound := by
      unfold getLayer
      rw [List.find?_eq_none.2 (by intro l hl; simpa using h l hl)]
    simp [getLayerMagnetisation, getLayerReferenceType, this]
  · intro hd l hl he
    rw [key]
    obtain ⟨k, hk⟩ := List.mem_iff_getElem?.1 hl
    refine ⟨k, hk, he, ?_⟩
    intro i l' hi hl' e
    obtain ⟨hk', rfl⟩ := List.getElem?_eq_some_iff.1 hk
    obtain ⟨hi', rfl⟩ := List.getElem?_eq_some_iff.1 hl'
    unfold DistinctIds at hd
    have hne := List.pairwise_iff_getElem.1 hd i k (by simpa using hi') (by simpa using hk') hi
    exact hne (by simp [e, he])
  · intro k l hk
    simp [getLayerIds, hk]

/-- helper: a junction without magnetoresistance -/
def ofLayers (ls : List (Layer T)) : Junction T :=
  { mrMode := .NONE, layers := ls, Rp := 0, Rap := 0, Rx0 := [], Ry0 := [], AMR_X := [], AMR_Y := [],
    SMR_X := [], SMR_Y := [], AHE := [], log := [], logLength := 0, Rtag := "R" }

/-- C21 is false for these setters when two layers share an id: the second one is left alone. -/
theorem C21_first_match_refuted (l : Layer T) (h : l.id ≠ "all") (hr : l.referenceType = .NONE) :
    ∃ k : Junction T, (ofLayers [l, l]).setLayerReferenceType l.id .TOP = .ok () k ∧
      k.layers.map Layer.id = [l.id, l.id] ∧ k.layers.map Layer.referenceType = [.TOP, .NONE] := by
  refine ⟨ofLayers [{ l with referenceType := .TOP }, l], ?_, rfl, by simp [ofLayers, hr]⟩
  unfold setLayerReferenceType firstOrAll
  rw [if_neg h]
  simp [ofLayers, updateFirst, Layer.setReferenceType, Out.ok]

example : Layer.demo.id ≠ "all" := by decide

/-- the hypotheses are met by a concrete junction -/
example : ∃ l ∈ demoJ.layers, Addressed "free" l := ⟨Layer.demo, by simp [demoJ], Or.inl rfl⟩
example : DistinctIds demoJ := by simp [DistinctIds, demoJ]

/-! ### C22 -/

/-- C22 for all setters but three: if the call raises, the junction is exactly as before. The three are the two torque
setters and `setLayerReferenceType(all, FIXED)`, see `C22_torque_refuted`, `C22_reference_refuted`. -/
theorem C22_unchanged_partial (j : Junction T) (c : Call T) (e : Err) (h : (c.exec j).res = .error e)
    (hc : ∀ id d, c ≠ .dampingLike id d) (hc' : ∀ id d, c ≠ .fieldLike id d) (hr : c ≠ .referenceType "all" .FIXED)
    (hrun : ∀ t d w en m, c ≠ .run t d w en m) : (c.exec j).st = j := by
  have pure : ∀ id f, (j.layerSetter id (pureSetter f)).res = .error e → (j.layerSetter id (pureSetter f)).st = j := by
    intro id f hh
    rw [layerSetter_pure] at hh ⊢
    split at hh
    · simp at hh
    · rename_i q; rw [if_neg q]; rfl
  have first : ∀ id (f : Layer T → Out (Layer T) Unit) (ls : List (Layer T)),
      (∀ l e', (f l).res = .error e' → (f l).st = l) →
      (updateFirst id f ls).res = .error e → (updateFirst id f ls).st = ls := by
    intro id f ls hf
    induction ls with
    | nil => intro _; rfl
    | cons l ls ih =>
      unfold updateFirst
      split
      · intro hh
        have := hf l e hh
        simp only
        rw [this]
      · intro hh
        have := ih hh
        simp only
        rw [this]
  have trav : ∀ (f : Layer T → Layer T) (ls : List (Layer T)) (i : Nat), ∃ bs ls',
      Out.traverse (fun (_ : Nat) (l : Layer T) => pureSetter f l) i ls = .ok bs ls' := by
    intro f ls i
    exact ⟨_, _, Out.traverse_of_ok _ (fun _ _ => ()) (fun _ l => f l) i ls (fun k a _ => rfl)⟩
  have foa : ∀ id f, (j.firstOrAll id (pureSetter f)).res = .error e → (j.firstOrAll id (pureSetter f)).st = j := by
    intro id f hh
    unfold firstOrAll at hh ⊢
    split at hh
    · obtain ⟨bs, ls', q⟩ := trav f j.layers 0
      rw [q] at hh
      simp [Out.ok] at hh
    · rename_i hid
      rw [if_neg hid]
      have := first id (pureSetter f) j.layers (by intro l e' q; simp [pureSetter] at q) hh
      simp only
      rw [this]
  have coup : ∀ a b f g, (j.coupling a b f g).res = .error e → (j.coupling a b f g).st = j := by
    intro a b f g hh
    unfold coupling at hh ⊢
    split at hh
    · simp at hh
    · rfl
  cases c with
  | temperature id d => exact pure id _ h
  | nonStochastic id d => exact pure id _ h
  | anisotropy id d => exact pure id _ h
  | externalField id d => exact pure id _ h
  | oersted id d => exact pure id _ h
  | current id d => exact pure id _ h
  | dampingLike id d => exact absurd rfl (hc id d)
  | fieldLike id d => exact absurd rfl (hc' id d)
  | reserved id d => exact pure id _ h
  | hdmi id d => exact pure id _ h
  | magnetisation id m =>
    change (j.setLayerMagnetisation id m).res = _ at h
    change (j.setLayerMagnetisation id m).st = _
    by_cases hm : Scalar.eqb m.length 0 = true
    · -- the first addressed layer throws
      have key : ∀ ls : List (Layer T), (setLoop id (·.setMagnetisation m) ls).st = ls := by
        intro ls
        induction ls with
        | nil => rfl
        | cons l ls ih =>
          unfold setLoop
          have hf : l.setMagnetisation m = .fail .zeroMag l := by simp [Layer.setMagnetisation, hm]
          split
          · rw [hf]; rfl
          · rcases hq : setLoop id (·.setMagnetisation m) ls with ⟨_ | b, s⟩ <;> rw [hq] at ih <;> simp only at ih ⊢ <;>
              rw [ih]
      have := key j.layers
      unfold setLayerMagnetisation layerSetter
      rcases hq : setLoop id (·.setMagnetisation m) j.layers with ⟨_ | b, s⟩
      · rw [hq] at this; simp only at this; subst this; rfl
      · rw [hq] at this; simp only at this; subst this; cases b <;> rfl
    · have hm' : Scalar.eqb m.length 0 = false := by simpa using hm
      have : (fun l : Layer T => l.setMagnetisation m) = pureSetter (fun l => l.setMag m.normalize) := by
        funext l; simp [Layer.setMagnetisation, hm', pureSetter]
      unfold setLayerMagnetisation at h ⊢
      rw [this] at h ⊢
      exact pure id _ h
  | alternativeSTT id b => exact foa id _ h
  | oneFNoise id => exact foa id _ h
  | referenceLayer id v => exact foa id _ h
  | referenceType id r =>
    by_cases hF : r = .FIXED
    · have hid : id ≠ "all" := by rintro rfl; exact hr (by rw [hF])
      change (j.setLayerReferenceType id r).res = _ at h
      change (j.setLayerReferenceType id r).st = _
      unfold setLayerReferenceType firstOrAll at h ⊢
      rw [if_neg hid] at h ⊢
      have := first id (·.setReferenceType r) j.layers (by
        intro l e' q
        unfold Layer.setReferenceType at q ⊢
        split at q
        · rename_i q'; rw [if_pos q']; rfl
        · simp at q) h
      simp only
      rw [this]
    · have : (fun l : Layer T => l.setReferenceType r) = pureSetter (fun l => { l with referenceType := r }) := by
        funext l; simp [Layer.setReferenceType, hF, pureSetter]
      change (j.setLayerReferenceType id r).res = _ at h
      change (j.setLayerReferenceType id r).st = _
      unfold setLayerReferenceType at h ⊢
      rw [this] at h ⊢
      exact foa id _ h
  | iec a b d => exact coup a b _ _ h
  | quadIec a b d => exact coup a b _ _ h
  | idmi a b d => exact coup a b _ _ h
  | clearLog => simp [Call.exec] at h
  | run t d w en m => exact absurd rfl (hrun t d w en m)

/-- What remains of C22 for the torque setters: the layer on which the setter throws keeps its dynamics (only its
logging flag changes). -/
theorem C22_torque_dynamics_partial (l l' : Layer T) (d : ScalarDriver T) (e : Err)
    (h : l.setDampingLikeTorqueDriver d = .fail e l' ∨ l.setFieldLikeTorqueDriver d = .fail e l')
    (hs : l.dynamicSOT = false → l.includeSTT = true ∨ l.includeSOT = true) :
    l' = { l with includeSOT := true } ∧ ∀ t m b a heff, (l'.solveLLG t m b a heff).1 = (l.solveLLG t m b a heff).1 := by
  have hl : l' = { l with includeSOT := true } ∧ (l.includeSTT = true ∨ l.dynamicSOT = false) := by
    rcases h with h | h
    · unfold Layer.setDampingLikeTorqueDriver at h
      cases h1 : l.includeSTT <;> cases h2 : l.dynamicSOT <;> simp [h1, h2, Out.ok, Out.fail] at h <;>
        exact ⟨h.2.symm, by simp⟩
    · unfold Layer.setFieldLikeTorqueDriver at h
      cases h1 : l.includeSTT <;> cases h2 : l.dynamicSOT <;> simp [h1, h2, Out.ok, Out.fail] at h <;>
        exact ⟨h.2.symm, by simp⟩
  refine ⟨hl.1, ?_⟩
  intro t m b a heff
  rw [hl.1]
  by_cases hS : l.includeSTT = true
  · simp [Layer.solveLLG, hS, Layer.sttEta, Layer.reference]
  · have hd := hl.2.resolve_left hS
    have hO := (hs hd).resolve_left hS
    have : ({ l with includeSOT := true } : Layer T) = l := by cases l; simp_all
    rw [this]


/-- helper: a layer for the counterexamples -/
noncomputable def sttDemo : Layer ℝ := { Layer.demo with includeSTT := true }

/-- C22 is false for the torque setters: on an STT layer the call raises, but from then on the energy log of that layer
has additional columns. -/
theorem C22_torque_refuted : ∃ (j k : Junction ℝ) (d : ScalarDriver ℝ),
    j.setLayerFieldLikeTorqueDriver "free" d = .fail .sttSotMix k ∧
    (∀ t, (j.logLayerParams t true).st.log.has "free_Hflx" = false) ∧
    (∀ t, (k.logLayerParams t true).st.log.has "free_Hflx" = true) := by
  refine ⟨ofLayers [sttDemo], ofLayers [{ sttDemo with includeSOT := true }], .null, ?_, ?_, ?_⟩
  · unfold setLayerFieldLikeTorqueDriver layerSetter
    have : sttDemo.id = "free" := rfl
    have h2 : sttDemo.includeSTT = true := rfl
    simp [ofLayers, setLoop, this, h2, Layer.setFieldLikeTorqueDriver, Out.ok, Out.fail]
  · intro t
    have : sttDemo.id = "free" := rfl
    have h3 : sttDemo.includeSOT = false := rfl
    have h4 : sttDemo.includeSTT = true := rfl
    simp [ofLayers, logLayerParams, mrEntries, layerEntries, energyComponent, this, h3, h4, Log.pushAll, Log.push, Log.has,
      Out.ok]
  · intro t
    have : sttDemo.id = "free" := rfl
    have h4 : sttDemo.includeSTT = true := rfl
    simp [ofLayers, logLayerParams, mrEntries, layerEntries, energyComponent, this, h4, Log.pushAll, Log.push, Log.has,
      Out.ok]

/-- helper: a plain layer with a fixed reference -/
noncomputable def refDemo : Layer ℝ :=
  { Layer.demo with referenceLayer := ⟨1, 0, 0⟩, referenceType := .FIXED, damping := 0,
                    includeSTT := false, includeSOT := false, dynamicSOT := true }

/-- C22 is false for the torque setters with "all": the layers before the throwing one keep the new driver, and their
dynamics change. -/
theorem C22_torque_all_refuted : ∃ (j k : Junction ℝ) (d : ScalarDriver ℝ) (l l' : Layer ℝ) (m : CVec ℝ),
    j.setLayerFieldLikeTorqueDriver "all" d = .fail .sttSotMix k ∧
    j.layers[0]? = some l ∧ k.layers[0]? = some l' ∧
    (l.solveLLG 0 m .zero .zero .zero).1 ≠ (l'.solveLLG 0 m .zero .zero .zero).1 := by
  let l := refDemo
  let d : ScalarDriver ℝ := ScalarDriver.constantDriver 1
  refine ⟨ofLayers [l, sttDemo], ofLayers [{ l with includeSOT := true, fieldLikeTorqueDriver := d },
    { sttDemo with includeSOT := true }], d, l, _, ⟨0, 0, 1⟩, ?_, rfl, rfl, ?_⟩
  · have h1 : l.includeSTT = false := rfl
    have h1' : l.dynamicSOT = true := rfl
    have h2 : sttDemo.includeSTT = true := rfl
    unfold setLayerFieldLikeTorqueDriver layerSetter
    simp [ofLayers, setLoop, h1, h1', h2, Layer.setFieldLikeTorqueDriver, Out.ok, Out.fail]
  · intro h
    have h1 : l.includeSTT = false := rfl
    have h1' : l.dynamicSOT = true := rfl
    have h2 : l.includeSOT = false := rfl
    have hd : l.damping = 0 := rfl
    have hv : d.value 0 = 1 := by simp [d, ScalarDriver.value, ScalarDriver.constantDriver]
    have hr : l.referenceLayer = ⟨1, 0, 0⟩ := rfl
    have hrt : l.referenceType = .FIXED := rfl
    have := congrArg CVec.y h
    simp [Layer.solveLLG, Layer.reference, h1, h1', h2, hd, hv, hr, hrt, Const.gyro] at this

/-- C22 is false for `setLayerReferenceType("all", FIXED)`: the layers before the throwing one are switched. -/
theorem C22_reference_refuted : ∃ (j k : Junction ℝ), j.setLayerReferenceType "all" .FIXED = .fail .zeroReference k ∧
    j.layers.map Layer.referenceType = [.NONE, .NONE] ∧ k.layers.map Layer.referenceType = [.FIXED, .NONE] := by
  let l : Layer ℝ := { Layer.demo with referenceLayer := ⟨1, 0, 0⟩, referenceType := .NONE }
  let l2 : Layer ℝ := { Layer.demo with referenceLayer := .zero, referenceType := .NONE }
  refine ⟨ofLayers [l, l2], ofLayers [{ l with referenceType := .FIXED }, l2], ?_, rfl, rfl⟩
  have h1 : l.referenceLayer.length ≠ 0 := by
    intro h
    rw [CVec.length_eq_zero] at h
    rw [CVec.ext_iff] at h
    simp [l, CVec.zero] at h
  have h2 : l2.referenceLayer.length = 0 := (CVec.length_eq_zero _).2 rfl
  unfold setLayerReferenceType firstOrAll
  simp [ofLayers, Out.traverse, Layer.setReferenceType, h1, h2, Out.ok, Out.fail]

/-! ### C23 -/

/-- helper -/
theorem couplePair_symm (a b : String) (f g : Layer T → Layer T) (ls : List (Layer T)) :
    couplePair a b f g ls = couplePair b a f g ls := by
  induction ls with
  | nil => rfl
  | cons l ls ih =>
    cases ls with
    | nil => rfl
    | cons u ls =>
      unfold couplePair
      rw [ih]
      by_cases h1 : l.id = a ∧ u.id = b
      · rw [if_pos h1]
        by_cases h2 : l.id = b ∧ u.id = a
        · rw [if_pos h2]
        · rw [if_neg h2, if_pos h1]
      · rw [if_neg h1]
        by_cases h2 : l.id = b ∧ u.id = a
        · rw [if_pos h2, if_pos h2]
        · rw [if_neg h2, if_neg h2, if_neg h1]

/-- C23: the order of the two ids does not matter. -/
theorem C23_symmetric (j : Junction T) (a b : String) :
    (∀ d, j.setIECDriver a b d = j.setIECDriver b a d) ∧
    (∀ d, j.setQuadIECDriver a b d = j.setQuadIECDriver b a d) ∧
    (∀ d, j.setIDMIDriver a b d = j.setIDMIDriver b a d) := by
  refine ⟨fun d => ?_, fun d => ?_, fun d => ?_⟩ <;>
    · simp only [setIECDriver, setQuadIECDriver, setIDMIDriver, coupling]
      rw [couplePair_symm]

/-- helper -/
theorem couplePair_spec (a b : String) (f g : Layer T → Layer T) (ls : List (Layer T)) :
    match couplePair a b f g ls with
    | none => ∀ i l u, ls[i]? = some l → ls[i + 1]? = some u → ¬((l.id = a ∧ u.id = b) ∨ (l.id = b ∧ u.id = a))
    | some ls' => ∃ i l u, ls[i]? = some l ∧ ls[i + 1]? = some u ∧ ((l.id = a ∧ u.id = b) ∨ (l.id = b ∧ u.id = a)) ∧
        (∀ (n : Nat) (x y : Layer T), n < i → ls[n]? = some x → ls[n + 1]? = some y → ¬((x.id = a ∧ y.id = b) ∨ (x.id = b ∧ y.id = a))) ∧
        ls'.length = ls.length ∧ ls'[i]? = some (f l) ∧ ls'[i + 1]? = some (g u) ∧
        ∀ n, n ≠ i → n ≠ i + 1 → ls'[n]? = ls[n]? := by
  induction ls with
  | nil => simp [couplePair]
  | cons l0 ls ih =>
    cases ls with
    | nil =>
      simp only [couplePair]
      intro i l u hl hu
      simp at hu
    | cons l1 ls =>
      by_cases h : (l0.id = a ∧ l1.id = b) ∨ (l0.id = b ∧ l1.id = a)
      · have e : couplePair a b f g (l0 :: l1 :: ls) = some (f l0 :: g l1 :: ls) := by
          unfold couplePair
          by_cases h1 : l0.id = a ∧ l1.id = b
          · rw [if_pos h1]
          · rw [if_neg h1, if_pos (h.resolve_left h1)]
        rw [e]
        refine ⟨0, l0, l1, rfl, rfl, h, by intro n _ _ hn; omega, by simp, rfl, rfl, ?_⟩
        intro n h0 h1
        match n, h0, h1 with
        | n + 2, _, _ => simp
      · have e : couplePair a b f g (l0 :: l1 :: ls) = (couplePair a b f g (l1 :: ls)).map (l0 :: ·) := by
          conv_lhs => unfold couplePair
          push Not at h
          rw [if_neg (by intro q; exact h.1 q.1 q.2), if_neg (by intro q; exact h.2 q.1 q.2)]
        rw [e]
        rcases hc : couplePair a b f g (l1 :: ls) with _ | ls'
        · rw [hc] at ih
          simp only [Option.map_none] at ih ⊢
          intro i l u hl hu
          cases i with
          | zero => simp at hl hu; subst hl; subst hu; exact h
          | succ i => simp only [List.getElem?_cons_succ] at hl hu; exact ih i l u hl hu
        · rw [hc] at ih
          simp only [Option.map_some] at ih ⊢
          obtain ⟨i, l, u, h1, h2, h3, h4, h5, h6, h7, h8⟩ := ih
          refine ⟨i + 1, l, u, by simpa using h1, by simpa using h2, h3, ?_, by simp [h5], by simpa using h6, by simpa using h7, ?_⟩
          · intro n x y hn hx hy
            cases n with
            | zero => simp at hx hy; subst hx; subst hy; exact h
            | succ n => simp only [List.getElem?_cons_succ] at hx hy; exact h4 n x y (by omega) hx hy
          · intro n hn hn'
            cases n with
            | zero => simp
            | succ n => simp only [List.getElem?_cons_succ]; exact h8 n (by omega) (by omega)

/-- What a successful coupling call does: at the lowest adjacent pair with the two ids, `f` is applied to the lower and
`g` to the upper layer; nothing else changes. -/
def _root_.Spec.Couples (j k : Junction T) (a b : String) (f g : Layer T → Layer T) : Prop :=
  ∃ i l u, PairAt j a b i ∧ (∀ n < i, ¬PairAt j a b n) ∧ j.layers[i]? = some l ∧ j.layers[i + 1]? = some u ∧
    k = { j with layers := k.layers } ∧ k.layers.length = j.layers.length ∧
    k.layers[i]? = some (f l) ∧ k.layers[i + 1]? = some (g u) ∧ ∀ n, n ≠ i → n ≠ i + 1 → k.layers[n]? = j.layers[n]?

/-- helper -/
theorem coupling_spec (j : Junction T) (a b : String) (f g : Layer T → Layer T) :
    ((∃ i, PairAt j a b i) → ∃ k, j.coupling a b f g = .ok () k ∧ Couples j k a b f g) ∧
    ((∀ i, ¬PairAt j a b i) → j.coupling a b f g = .fail .pairNotFound j) := by
  have hs := couplePair_spec a b f g j.layers
  unfold coupling
  rcases hc : couplePair a b f g j.layers with _ | ls
  · rw [hc] at hs
    simp only at hs
    refine ⟨?_, fun _ => rfl⟩
    rintro ⟨i, l, u, h1, h2, h3⟩
    exact absurd h3 (hs i l u h1 h2)
  · rw [hc] at hs
    simp only at hs
    obtain ⟨i, l, u, h1, h2, h3, h4, h5, h6, h7, h8⟩ := hs
    constructor
    · intro _
      refine ⟨_, rfl, i, l, u, ⟨l, u, h1, h2, h3⟩, ?_, h1, h2, rfl, h5, h6, h7, h8⟩
      rintro n hn ⟨x, y, hx, hy, hxy⟩
      exact h4 n x y hn hx hy hxy
    · intro q
      exact absurd ⟨l, u, h1, h2, h3⟩ (q i)

/-- C23: a coupling call succeeds exactly when two adjacent layers carry the two ids; it then gives the driver to the
lower layer's upward and the upper layer's downward coupling of the lowest such pair and changes nothing else. -/
theorem C23_adjacent (j : Junction T) (a b : String) (h : ∃ i, PairAt j a b i) :
    (∀ d, ∃ k, j.setIECDriver a b d = .ok () k ∧
      Couples j k a b (fun l => { l with IECDriverTop := d }) (fun l => { l with IECDriverBottom := d })) ∧
    (∀ d, ∃ k, j.setQuadIECDriver a b d = .ok () k ∧
      Couples j k a b (fun l => { l with IECQuadDriverTop := d }) (fun l => { l with IECQuadDriverBottom := d })) ∧
    (∀ d, ∃ k, j.setIDMIDriver a b d = .ok () k ∧
      Couples j k a b (fun l => { l with IDMIDriverTop := d }) (fun l => { l with IDMIDriverBottom := d })) :=
  ⟨fun _ => (coupling_spec j a b _ _).1 h, fun _ => (coupling_spec j a b _ _).1 h,
    fun _ => (coupling_spec j a b _ _).1 h⟩

/-- C23: otherwise it raises and changes nothing. -/
theorem C23_not_adjacent (j : Junction T) (a b : String) (h : ∀ i, ¬PairAt j a b i) :
    (∀ d, j.setIECDriver a b d = .fail .pairNotFound j) ∧
    (∀ d, j.setQuadIECDriver a b d = .fail .pairNotFound j) ∧
    (∀ d, j.setIDMIDriver a b d = .fail .pairNotFound j) :=
  ⟨fun _ => (coupling_spec j a b _ _).2 h, fun _ => (coupling_spec j a b _ _).2 h,
    fun _ => (coupling_spec j a b _ _).2 h⟩

/-- concrete cases of both -/
example : ∃ i, PairAt (ofLayers [Layer.demo, { Layer.demo with id := "bottom" }]) "bottom" "free" i :=
  ⟨0, Layer.demo, _, rfl, rfl, Or.inr ⟨rfl, rfl⟩⟩
example : ∀ i, ¬PairAt (ofLayers [Layer.demo]) "bottom" "free" i := by
  rintro i ⟨l, u, h1, h2, -⟩
  simp [ofLayers] at h2

end Junction
