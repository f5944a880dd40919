import Verif.Spec.PyBind

/-!
# C107: calls mean what the type stubs say
-/

set_option linter.unusedSectionVars false

namespace Bind
open Stub
variable {α : Type}

/-! ## Assigning arguments -/

theorem lookup_filter {kw : List (String × α)} {n k : String} (h : k ≠ n) : (kw.filter fun p => some n != some p.1).lookup k = kw.lookup k := by
  induction kw with
  | nil => rfl
  | cons p kw ih =>
    obtain ⟨q, v⟩ := p
    by_cases hq : n = q
    · have : (k == q) = false := by simpa using fun e => h (e.trans hq.symm)
      simp [hq, List.lookup_cons, this, ← ih]
    · simp only [List.filter_cons, bne_iff_ne, ne_eq, Option.some.injEq, hq, not_false_eq_true, if_true, List.lookup_cons, ih]

theorem lookup_none {kw : List (String × α)} {n : String} : kw.lookup n = none ↔ ∀ v, (n, v) ∉ kw := by
  induction kw with
  | nil => simp
  | cons p kw ih =>
    obtain ⟨q, v⟩ := p
    by_cases hq : n = q
    · subst hq
      simp
      exact ⟨v, fun h => (h rfl).elim⟩
    · have : (n == q) = false := by simpa using hq
      simp [List.lookup_cons, this, ih, hq]

theorem lookup_some {kw : List (String × α)} {n : String} {v : α} (h : kw.lookup n = some v) : (n, v) ∈ kw := by
  induction kw with
  | nil => simp at h
  | cons p kw ih =>
    obtain ⟨q, w⟩ := p
    by_cases hq : n = q
    · subst hq
      simp at h
      simp [h]
    · have : (n == q) = false := by simpa using hq
      simp only [List.lookup_cons, this] at h
      exact List.mem_cons_of_mem _ (ih h)

theorem means_nil {pos : List α} {kw : List (String × α)} {f : List (Option α)} : Means [] pos kw f ↔ pos = [] ∧ kw = [] ∧ f = [] := by
  constructor
  · intro h
    refine ⟨List.length_eq_zero_iff.mp (Nat.le_zero.mp h.few), ?_, List.length_eq_zero_iff.mp h.length⟩
    cases kw with
    | nil => rfl
    | cons p kw =>
      obtain ⟨_, _, _, hp, _⟩ := h.known p.1 p.2 (by simp)
      simp at hp
  · rintro ⟨rfl, rfl, rfl⟩
    exact ⟨rfl, le_rfl, by simp, by simp, by simp, by simp⟩

theorem means_pos {p : Stub.Param} {ps : List Stub.Param} (hn : p.name ∉ ps.map (·.name)) {a : α} {as : List α} {kw : List (String × α)}
    {f : List (Option α)} : Means (p :: ps) (a :: as) kw f ↔ kw.lookup p.name = none ∧ ∃ f', f = some a :: f' ∧ Means ps as kw f' := by
  constructor
  · intro h
    refine ⟨lookup_none.mpr fun v hv => ?_, ?_⟩
    · obtain ⟨i, q, hi, hq, he⟩ := h.known _ _ hv
      cases i with
      | zero => simp at hi
      | succ i =>
        simp only [List.getElem?_cons_succ] at hq
        exact hn (List.mem_map.mpr ⟨q, List.mem_of_getElem? hq, he⟩)
    · have h0 := h.positional 0 (by simp)
      cases f with
      | nil => simp at h0
      | cons x f' =>
        simp only [List.getElem?_cons_zero, Option.some.injEq] at h0
        refine ⟨f', by rw [h0], ⟨by simpa using h.length, by simpa using h.few, fun i hi => ?_, fun i q hi hq => ?_, fun k v hk => ?_,
          fun i q hq ho => ?_⟩⟩
        · simpa using h.positional (i + 1) (by simpa using hi)
        · simpa using h.keyword (i + 1) q (by simpa using hi) (by simpa using hq)
        · obtain ⟨i, q, hi, hq, he⟩ := h.known k v hk
          cases i with
          | zero => simp at hi
          | succ i => exact ⟨i, q, by simpa using hi, by simpa using hq, he⟩
        · simpa using h.needed (i + 1) q (by simpa using hq) ho
  · rintro ⟨hl, f', rfl, h⟩
    refine ⟨by simpa using h.length, by simpa using h.few, fun i hi => ?_, fun i q hi hq => ?_, fun k v hk => ?_, fun i q hq ho => ?_⟩
    · cases i with
      | zero => simp
      | succ i => simpa using h.positional i (by simpa using hi)
    · cases i with
      | zero => simp at hi
      | succ i => simpa using h.keyword i q (by simpa using hi) (by simpa using hq)
    · obtain ⟨i, q, hi, hq, he⟩ := h.known k v hk
      exact ⟨i + 1, q, by simpa using hi, by simpa using hq, he⟩
    · cases i with
      | zero => simp
      | succ i => simpa using h.needed i q (by simpa using hq) ho

theorem means_kw {p : Stub.Param} {ps : List Stub.Param} (hn : p.name ∉ ps.map (·.name)) {v : α} {kw : List (String × α)}
    (hv : kw.lookup p.name = some v) {f : List (Option α)} :
    Means (p :: ps) [] kw f ↔ ∃ f', f = some v :: f' ∧ Means ps [] (kw.filter fun q => some p.name != some q.1) f' := by
  have ne : ∀ {i : Nat} {q : Stub.Param}, ps[i]? = some q → q.name ≠ p.name := fun hq e =>
    hn (List.mem_map.mpr ⟨_, List.mem_of_getElem? hq, e⟩)
  constructor
  · intro h
    have h0 := h.keyword 0 p (by simp) (by simp)
    rw [hv] at h0
    cases f with
    | nil => simp at h0
    | cons x f' =>
      simp only [List.getElem?_cons_zero, Option.some.injEq] at h0
      refine ⟨f', by rw [h0], ⟨by simpa using h.length, by simp, by simp, fun i q _ hq => ?_, fun k w hk => ?_, fun i q hq ho => ?_⟩⟩
      · rw [lookup_filter (ne hq)]
        simpa using h.keyword (i + 1) q (by simp) (by simpa using hq)
      · obtain ⟨hk, hne⟩ := List.mem_filter.mp hk
        obtain ⟨i, q, _, hq, he⟩ := h.known k w hk
        cases i with
        | zero =>
          simp at hq
          simp [hq, he] at hne
        | succ i => exact ⟨i, q, by simp, by simpa using hq, he⟩
      · simpa using h.needed (i + 1) q (by simpa using hq) ho
  · rintro ⟨f', rfl, h⟩
    refine ⟨by simpa using h.length, by simp, by simp, fun i q _ hq => ?_, fun k w hk => ?_, fun i q hq ho => ?_⟩
    · cases i with
      | zero =>
        simp at hq
        simp [← hq, hv]
      | succ i =>
        have hq' : ps[i]? = some q := by simpa using hq
        have := h.keyword i q (by simp) hq'
        rw [lookup_filter (ne hq')] at this
        simpa using this
    · by_cases e : p.name = k
      · exact ⟨0, p, by simp, by simp, e⟩
      · obtain ⟨i, q, _, hq, he⟩ := h.known k w (List.mem_filter.mpr ⟨hk, by simpa using e⟩)
        exact ⟨i + 1, q, by simp, by simpa using hq, he⟩
    · cases i with
      | zero => simp
      | succ i => simpa using h.needed i q (by simpa using hq) ho

theorem means_default {p : Stub.Param} {ps : List Stub.Param} {kw : List (String × α)}
    (hv : kw.lookup p.name = none) {f : List (Option α)} :
    Means (p :: ps) [] kw f ↔ p.opt = true ∧ ∃ f', f = none :: f' ∧ Means ps [] kw f' := by
  constructor
  · intro h
    have h0 := h.keyword 0 p (by simp) (by simp)
    rw [hv] at h0
    refine ⟨?_, ?_⟩
    · by_contra ho
      exact h.needed 0 p (by simp) (by simpa using ho) h0
    · cases f with
      | nil => simp at h0
      | cons x f' =>
        simp only [List.getElem?_cons_zero, Option.some.injEq] at h0
        refine ⟨f', by rw [h0], ⟨by simpa using h.length, by simp, by simp, fun i q _ hq => ?_, fun k w hk => ?_, fun i q hq ho => ?_⟩⟩
        · simpa using h.keyword (i + 1) q (by simp) (by simpa using hq)
        · obtain ⟨i, q, _, hq, he⟩ := h.known k w hk
          cases i with
          | zero =>
            simp at hq
            subst hq
            exact absurd (he ▸ hk) (lookup_none.mp hv w)
          | succ i => exact ⟨i, q, by simp, by simpa using hq, he⟩
        · simpa using h.needed (i + 1) q (by simpa using hq) ho
  · rintro ⟨ho, f', rfl, h⟩
    refine ⟨by simpa using h.length, by simp, by simp, fun i q _ hq => ?_, fun k w hk => ?_, fun i q hq hq' => ?_⟩
    · cases i with
      | zero =>
        simp at hq
        simp [← hq, hv]
      | succ i => simpa using h.keyword i q (by simp) (by simpa using hq)
    · obtain ⟨i, q, _, hq, he⟩ := h.known k w hk
      exact ⟨i + 1, q, by simp, by simpa using hq, he⟩
    · cases i with
      | zero =>
        simp at hq
        subst hq
        rw [ho] at hq'
        exact absurd hq' (by simp)
      | succ i => simpa using h.needed i q (by simpa using hq) hq'

/-- The names and flags of a documented signature. -/
def docShape (doc : List Stub.Param) : List (Option String × Bool) := doc.map fun p => (some p.name, p.opt)

theorem fill_iff : ∀ (doc : List Stub.Param), (doc.map (·.name)).Nodup → ∀ (pos : List α) (kw : List (String × α)) (f : List (Option α)),
    fill (docShape doc) pos kw = some f ↔ Means doc pos kw f
  | [], _, [], kw, f => by
    rw [means_nil]
    cases kw <;> simp [docShape, fill, eq_comm]
  | [], _, a :: as, kw, f => by
    rw [means_nil]
    simp [docShape, fill]
  | p :: ps, hn, a :: as, kw, f => by
    have hn' := List.nodup_cons.mp hn
    rw [means_pos hn'.1]
    have ih := fill_iff ps hn'.2 as kw
    show (if (kw.lookup p.name).isSome = true then none else (fill (docShape ps) as kw).map (some a :: ·)) = some f ↔ _
    cases hl : kw.lookup p.name with
    | some v => simp
    | none =>
      simp only [Option.isSome_none, Bool.false_eq_true, if_false, true_and, Option.map_eq_some_iff]
      exact ⟨fun ⟨f', h, e⟩ => ⟨f', e.symm, (ih f').mp h⟩, fun ⟨f', e, h⟩ => ⟨f', (ih f').mpr h, e.symm⟩⟩
  | p :: ps, hn, [], kw, f => by
    have hn' := List.nodup_cons.mp hn
    show (match kw.lookup p.name with
      | some v => (fill (docShape ps) [] (kw.filter fun q => some p.name != some q.1)).map (some v :: ·)
      | none => if p.opt = true then (fill (docShape ps) [] kw).map (none :: ·) else none) = some f ↔ _
    cases hl : kw.lookup p.name with
    | some v =>
      rw [means_kw hn'.1 hl]
      have ih := fill_iff ps hn'.2 [] (kw.filter fun q => some p.name != some q.1)
      simp only [Option.map_eq_some_iff]
      exact ⟨fun ⟨f', h, e⟩ => ⟨f', e.symm, (ih f').mp h⟩, fun ⟨f', e, h⟩ => ⟨f', (ih f').mpr h, e.symm⟩⟩
    | none =>
      rw [means_default hl]
      have ih := fill_iff ps hn'.2 [] kw
      by_cases ho : p.opt = true
      · simp only [ho, if_true, Option.map_eq_some_iff, true_and]
        exact ⟨fun ⟨f', h, e⟩ => ⟨f', e.symm, (ih f').mp h⟩, fun ⟨f', e, h⟩ => ⟨f', (ih f').mpr h, e.symm⟩⟩
      · simp [ho]

/-- Without keywords the names do not matter. -/
theorem fill_flags : ∀ (s t : List (Option String × Bool)), s.map (·.2) = t.map (·.2) → ∀ pos : List α, fill s pos [] = fill t pos []
  | [], [], _, _ => rfl
  | [], _ :: _, h, _ => by simp at h
  | _ :: _, [], h, _ => by simp at h
  | (n, o) :: s, (m, q) :: t, h, pos => by
    obtain ⟨h1, h2⟩ := List.cons.inj h
    simp only at h1
    subst h1
    cases pos with
    | nil =>
      have ih := fill_flags s t h2 ([] : List α)
      cases n <;> cases m <;> simp [fill, ih]
    | cons a as =>
      have ih := fill_flags s t h2 as
      cases n <;> cases m <;> simp [fill, ih]

/-! ## The table -/

/-- Functions that take no keywords though the stub names their parameters. -/
def unnamed : List String := [
  "c_dot", "AxialDriver.__init__", "AxialDriver.applyMask", "CVector.__init__", "CVector.__add__", "CVector.__eq__", "CVector.__getitem__",
  "CVector.__iadd__", "CVector.__imul__", "CVector.__isub__", "CVector.__mul__", "CVector.__ne__", "CVector.__rmul__", "CVector.__sub__",
  "Junction.getLayerMagnetisation", "Junction.setIECDriver", "Junction.setQuadIECDriver", "Junction.setLayerTemperatureDriver",
  "Junction.setLayerAnisotropyDriver", "Junction.setLayerCurrentDriver", "Junction.setLayerExternalFieldDriver",
  "Junction.setLayerMagnetisation", "Junction.setLayerOerstedFieldDriver", "Junction.setLayerDampingLikeTorqueDriver",
  "Junction.setLayerFieldLikeTorqueDriver", "Junction.setLayerOneFNoise", "Layer.setAnisotropyDriver", "Layer.setTemperatureDriver",
  "Layer.setExternalFieldDriver", "Layer.setMagnetisation", "Layer.setOerstedFieldDriver", "Layer.setDampingLikeTorqueDriver",
  "Layer.setFieldLikeTorqueDriver", "Layer.setReferenceLayer", "Layer.setTopDipoleTensor", "Layer.setBottomDipoleTensor",
  "Layer.setAlternativeSTT", "Layer.setKappa", "stack.ParallelStack.getLog", "stack.SeriesStack.getLog",
  "reservoir.GroupInteraction.setInteractionFunction", "reservoir.Reservoir.getLayer", "reservoir.Reservoir.getMagnetisation",
  "reservoir.Reservoir.runSimulation", "reservoir.Reservoir.saveLogs", "reservoir.Reservoir.setAllExternalField",
  "reservoir.Reservoir.setLayerAnisotropy", "reservoir.Reservoir.setLayerExternalField", "llgb.LLGBJunction.saveLogs",
  "llgb.LLGBJunction.setLayerExternalFieldDriver", "llgb.LLGBJunction.setLayerTemperatureDriver", "llgb.LLGBLayer.setAnisotropyDriver",
  "llgb.LLGBLayer.setExternalFieldDriver", "llgb.LLGBLayer.setTemperatureDriver", "llgb.langevin", "llgb.langevinDerivative"]

/-- Functions whose documented parameters and bound parameters differ. -/
def renamed : List String := ["constantDriver", "AxialDriver.getCurrentAxialDrivers", "stack.ParallelStack.__init__",
  "stack.ParallelStack.setMagnetisation", "stack.SeriesStack.__init__", "stack.SeriesStack.setMagnetisation"]

/-- Functions that are not bound, or with other parameters. -/
def different : List String := ["AxialDriver.getVectorAxialDriver", "CVector.__iter__", "Junction.runSimulation", "Layer.__init__",
  "reservoir.GroupInteraction.getLog"]

/-- The check of one documented function. -/
def sameNames (e : String × List (List Stub.Param)) : Bool :=
  e.2.all (fun doc => (doc.map (·.name)).Nodup) && ((bound e.1).map (·.shape)).take e.2.length == e.2.map docShape

def sameFlags (e : String × List (List Stub.Param)) : Bool :=
  e.2.all (fun doc => (doc.map (·.name)).Nodup) &&
    ((bound e.1).map fun o => o.shape.map (·.2)).take e.2.length == e.2.map fun doc => (docShape doc).map (·.2)

theorem names_checked : (Stub.table.all fun e => unnamed.contains e.1 || renamed.contains e.1 || different.contains e.1 || sameNames e) = true := by
  decide +kernel

theorem flags_checked : (Stub.table.all fun e => different.contains e.1 || sameFlags e) = true := by
  decide +kernel

theorem distinct {e : String × List (List Stub.Param)} (he : e ∈ Stub.table) (hd : e.1 ∉ different) {doc : List Stub.Param} (h : doc ∈ e.2) :
    (doc.map (·.name)).Nodup := by
  have := List.all_eq_true.mp flags_checked e he
  simp only [Bool.or_eq_true, List.contains_iff_mem, hd, false_or, sameFlags, Bool.and_eq_true, List.all_eq_true] at this
  exact of_decide_eq_true (this.1 doc h)

theorem take_map {β γ : Type} {l : List β} {g : β → γ} {m : List γ} {k : Nat} {x : γ} (h : (l.map g).take m.length = m) (hx : m[k]? = some x) :
    ∃ y, l[k]? = some y ∧ g y = x := by
  rw [← h, List.getElem?_take] at hx
  split at hx
  · rw [List.getElem?_map, Option.map_eq_some_iff] at hx
    exact hx
  · simp at hx

/-- **C107** Positional arguments go to the documented parameters: every overload of every documented function with the five exceptions
`different` is bound and takes a positional call in exactly the documented way. -/
theorem C107_positional {e : String × List (List Stub.Param)} (he : e ∈ Stub.table) (hd : e.1 ∉ different) {k : Nat} {doc : List Stub.Param}
    (hk : e.2[k]? = some doc) :
    ∃ o, (bound e.1)[k]? = some o ∧ ∀ (pos : List α) (f : List (Option α)), fill o.shape pos [] = some f ↔ Means doc pos [] f := by
  have := List.all_eq_true.mp flags_checked e he
  simp only [Bool.or_eq_true, List.contains_iff_mem, hd, false_or, sameFlags, Bool.and_eq_true, beq_iff_eq] at this
  have h : ((bound e.1).map fun o => o.shape.map (·.2)).take (e.2.map fun doc => (docShape doc).map (·.2)).length
      = e.2.map fun doc => (docShape doc).map (·.2) := by rw [List.length_map]; exact this.2
  obtain ⟨o, ho, e'⟩ := take_map (k := k) (x := (docShape doc).map (·.2)) h (by rw [List.getElem?_map, hk]; rfl)
  refine ⟨o, ho, fun pos f => ?_⟩
  rw [fill_flags _ _ e' pos]
  exact fill_iff doc (distinct he hd (List.mem_of_getElem? hk)) pos [] f

/-- **C107** The functions that are neither `unnamed` nor `renamed` nor `different` take every call in exactly the documented way. -/
theorem C107_keywords {e : String × List (List Stub.Param)} (he : e ∈ Stub.table) (hu : e.1 ∉ unnamed) (hr : e.1 ∉ renamed)
    (hd : e.1 ∉ different) {k : Nat} {doc : List Stub.Param} (hk : e.2[k]? = some doc) :
    ∃ o, (bound e.1)[k]? = some o ∧ ∀ (pos : List α) (kw : List (String × α)) (f : List (Option α)),
      fill o.shape pos kw = some f ↔ Means doc pos kw f := by
  have := List.all_eq_true.mp names_checked e he
  simp only [Bool.or_eq_true, List.contains_iff_mem, hu, hr, hd, false_or, sameNames, Bool.and_eq_true, beq_iff_eq] at this
  have h : ((bound e.1).map (·.shape)).take (e.2.map docShape).length = e.2.map docShape := by rw [List.length_map]; exact this.2
  obtain ⟨o, ho, e'⟩ := take_map (k := k) (x := docShape doc) h (by rw [List.getElem?_map, hk]; rfl)
  refine ⟨o, ho, fun pos kw f => ?_⟩
  rw [e']
  exact fill_iff doc (distinct he hd (List.mem_of_getElem? hk)) pos kw f

/-- A keyword that no parameter has is refused. -/
theorem fill_unknown : ∀ (s : List (Option String × Bool)) {n : String}, some n ∉ s.map (·.1) → ∀ (pos : List α) (kw : List (String × α)) (v : α),
    (n, v) ∈ kw → fill s pos kw = none
  | [], _, _, [], kw, v, h => by
    cases kw with
    | nil => simp at h
    | cons p kw => rfl
  | [], _, _, _ :: _, _, _, _ => rfl
  | (m, o) :: s, n, hn, a :: as, kw, v, h => by
    have ih := fill_unknown s (fun e => hn (List.mem_cons_of_mem _ e)) as kw v h
    simp [fill, ih]
  | (m, o) :: s, n, hn, [], kw, v, h => by
    have hm : m ≠ some n := fun e => hn (by simp [e])
    have ih := fill_unknown s (fun e => hn (List.mem_cons_of_mem _ e)) [] kw v h
    have ih' := fill_unknown s (fun e => hn (List.mem_cons_of_mem _ e)) [] (kw.filter fun p => m != some p.1) v
      (List.mem_filter.mpr ⟨h, by simpa using hm⟩)
    simp only [fill, ih, ih', Option.map_none, ite_self]
    split <;> rfl

/-- All parameters given by keyword. -/
def spelled (doc : List Stub.Param) : List (String × Unit) := doc.map fun p => (p.name, ())

theorem means_spelled (doc : List Stub.Param) : ∃ f, Means doc [] (spelled doc) f := by
  have hl : ∀ (i : Nat) (p : Stub.Param), doc[i]? = some p → (spelled doc).lookup p.name = some () := by
    intro i p hp
    cases h : (spelled doc).lookup p.name with
    | some _ => rfl
    | none => exact absurd (List.mem_map.mpr ⟨p, List.mem_of_getElem? hp, rfl⟩) (lookup_none.mp h ())
  refine ⟨doc.map fun _ => some (), by simp, by simp, by simp, fun i p _ hp => ?_, fun k v hk => ?_, fun i p hp _ => ?_⟩
  · rw [hl i p hp, List.getElem?_map, hp]
    rfl
  · obtain ⟨p, hp, e⟩ := List.mem_map.mp hk
    obtain ⟨i, hi⟩ := List.mem_iff_getElem?.mp hp
    exact ⟨i, p, by simp, hi, (Prod.mk.inj e).1⟩
  · rw [List.getElem?_map, hp]
    simp

def refuses (e : String × List (List Stub.Param)) : Bool :=
  e.2.any fun doc => doc.any fun p => (bound e.1).all fun o => !(o.shape.map (·.1)).contains (some p.name)

theorem refuses_checked : (Stub.table.all fun e => !(unnamed.contains e.1 || renamed.contains e.1) || refuses e) = true := by
  decide +kernel

/-- **C107** is refuted for keywords: each of the functions `unnamed` and `renamed` has a documented parameter that no call can give by
keyword. -/
theorem C107_keywords_refuted {e : String × List (List Stub.Param)} (he : e ∈ Stub.table) (h : e.1 ∈ unnamed ∨ e.1 ∈ renamed) :
    ∃ doc ∈ e.2, ∃ p ∈ doc, (∃ f, Means doc [] (spelled doc) f) ∧
      ∀ (pos : List α) (kw : List (String × α)) (v : α), (p.name, v) ∈ kw → ∀ o ∈ bound e.1, fill o.shape pos kw = none := by
  have := List.all_eq_true.mp refuses_checked e he
  have hc : (unnamed.contains e.1 || renamed.contains e.1) = true := by simpa using h
  simp only [hc, Bool.not_true, Bool.false_or] at this
  simp only [refuses, List.any_eq_true, List.all_eq_true, Bool.not_eq_true', List.contains_eq_mem,
    decide_eq_false_iff_not] at this
  obtain ⟨doc, hdoc, p, hp, ho⟩ := this
  exact ⟨doc, hdoc, p, hp, means_spelled doc, fun pos kw v hv o hb => fill_unknown _ (ho o hb) pos kw v hv⟩

/-- **C107** is refuted for `Layer`: the eighth positional argument is documented as the temperature and taken as the damping. -/
theorem C107_layer_refuted : ∃ doc o, Stub.table.lookup "Layer.__init__" = some [doc] ∧ bound "Layer.__init__" = [o] ∧
    ∀ a1 a2 a3 a4 a5 a6 a7 a8 a9 : α,
      (∃ f, Means doc [a1, a2, a3, a4, a5, a6, a7, a8] [] f ∧ (doc.map (·.name))[7]? = some "temperature" ∧ f[7]? = some (some a8) ∧
        (doc.map (·.name))[8]? = some "damping" ∧ f[8]? = some none) ∧
      (∃ f, fill o.shape [a1, a2, a3, a4, a5, a6, a7, a8] [] = some f ∧ (o.params.map (·.name))[7]? = some (some "damping") ∧
        f[7]? = some (some a8)) ∧
      fill o.shape [a1, a2, a3, a4, a5, a6, a7, a8, a9] [] = none := by
  refine ⟨_, _, rfl, rfl, fun a1 a2 a3 a4 a5 a6 a7 a8 a9 => ⟨?_, ⟨_, rfl, rfl, rfl⟩, rfl⟩⟩
  exact ⟨_, (fill_iff _ (by decide) _ _ _).mp rfl, rfl, rfl, rfl, rfl⟩

/-- **C107** is refuted for `Junction.runSimulation`: the fourth and fifth positional arguments are documented as `persist` and `log` and
taken as `log` and `calculateEnergies`, no call can give `persist` by keyword, and six positional arguments as documented are refused. -/
theorem C107_run_refuted {T : Type} [Scalar T] : ∃ doc o, Stub.table.lookup "Junction.runSimulation" = some [doc] ∧
    bound "Junction.runSimulation" = [o] ∧
    (∀ a b c d e : α,
      (∃ f, Means doc [a, b, c, d, e] [] f ∧ ((doc.map (·.name)).zip f).drop 3 = [("persist", some d), ("log", some e), ("calculateEnergies", none)]) ∧
      (∃ f, fill o.shape [a, b, c, d, e] [] = some f ∧
        ((o.params.map (·.name)).zip f).drop 3 = [(some "log", some d), (some "calculateEnergies", some e), (some "solverMode", none)])) ∧
    (∀ (pos : List α) (kw : List (String × α)) (v : α), ("persist", v) ∈ kw → fill o.shape pos kw = none) ∧
    ∀ (a b c d e : Val T) (energies : Bool), (∃ f, Means doc [a, b, c, d, e, .bool energies] [] f) ∧
      dispatch [o] [a, b, c, d, e, .bool energies] [] = none := by
  refine ⟨_, _, rfl, rfl, fun a b c d e => ⟨⟨_, (fill_iff _ (by decide) _ _ _).mp rfl, rfl⟩, ⟨_, rfl, rfl⟩⟩,
    fun pos kw v h => fill_unknown _ (by decide) pos kw v h, fun a b c d e energies => ⟨⟨_, (fill_iff _ (by decide) _ _ _).mp rfl⟩, ?_⟩⟩
  simp [dispatch, firstOf, Overload.accept, Overload.shape, fill, allFit, loads, fits, opt, named]

/-- **C107** is refuted for `GroupInteraction.getLog()`: the call without arguments is documented and refused. -/
theorem C107_group_refuted {T : Type} [Scalar T] : ∃ doc₁ doc₂, Stub.table.lookup "reservoir.GroupInteraction.getLog" = some [doc₁, doc₂] ∧
    Means doc₂ ([] : List (Val T)) [] [] ∧ dispatch (bound "reservoir.GroupInteraction.getLog") ([] : List (Val T)) [] = none := by
  refine ⟨_, _, rfl, means_nil.mpr ⟨rfl, rfl, rfl⟩, ?_⟩
  have : bound "reservoir.GroupInteraction.getLog" = [⟨"GroupInteraction::getLog(unsigned int)", [arg .uint]⟩, ⟨"GroupInteraction::getLog(unsigned int)", [arg .uint]⟩] := rfl
  rw [this]
  rfl

/-- **C107** is refuted for `getVectorAxialDriver`: called on a driver it refuses all arguments; called on the class it takes three numbers. -/
theorem C107_axial_refuted {T : Type} [Scalar T] : (∃ doc, Stub.table.lookup "AxialDriver.getVectorAxialDriver" = some [doc] ∧
      ∀ a b : Val T, ∃ f, Means doc [a, b] [] f) ∧
    (∀ (pos : List (Val T)) (kw : List (String × Val T)), dispatch [vectorAxialDriver] (.obj .AxialDriver (by decide) :: pos) kw = none) ∧
    ∀ x y z : T, dispatch [vectorAxialDriver] [.float x, .float y, .float z] [] =
      some ("AxialDriver::getVectorAxialDriver", [some (.float x), some (.float y), some (.float z)]) := by
  refine ⟨⟨_, rfl, fun a b => ⟨_, (fill_iff _ (by decide) _ _ _).mp rfl⟩⟩, fun pos kw => ?_, fun x y z => rfl⟩
  have : ∀ f, fill vectorAxialDriver.shape (Val.obj .AxialDriver (by decide) :: pos) kw = some f →
      allFit (loads (T := T) true) vectorAxialDriver.params f = false := by
    intro f hf
    simp only [vectorAxialDriver, Overload.shape, List.map_cons, arg, fill, Option.bind_none, Option.isSome_none, Bool.false_eq_true,
      if_false, Option.map_eq_some_iff] at hf
    obtain ⟨f', _, rfl⟩ := hf
    rfl
  simp only [dispatch, List.length_singleton, lt_irrefl, if_false, firstOf, Overload.accept]
  cases h : fill vectorAxialDriver.shape (Val.obj .AxialDriver (by decide) :: pos) kw with
  | none => rfl
  | some f => simp [this f h]

/-! ## Targets -/

/-- **C107** Every function of the module calls the C++ function that its name stands for. -/
theorem C107_targets {e : String × List Overload} (he : e ∈ table) {o : Overload} (ho : o ∈ e.2) : Stub.StandsFor e.1 o.target :=
  (by decide +kernel : ∀ e ∈ table, ∀ o ∈ e.2, Stub.StandsFor e.1 o.target) e he o ho

/-- Another member, or a member of another class, would not do. -/
example : ¬ Stub.StandsFor "Layer.getId" "Layer::getOneFVector" ∧ ¬ Stub.StandsFor "Layer.getId" "Junction::getId" ∧
    ¬ Stub.StandsFor "CVector.__add__" "CVector::operator-" := by decide +kernel

/-! ## Defaults -/

/-- Defaults that are documented and different. -/
def otherDefault : List (String × String) := [("Layer.createSOTLayer", "damping"), ("reservoir.GroupInteraction.runSimulation", "writeFrequency")]

def sameDefaults (e : String × List (List Stub.Param)) : Bool :=
  (e.2.zip (bound e.1)).all fun d => (d.1.zip d.2.params).all fun p => otherDefault.contains (e.1, p.1.name) || p.1.dflt.isNone || p.1.dflt == p.2.dflt

theorem defaults_checked : (Stub.table.all fun e => different.contains e.1 || sameDefaults e) = true := by
  decide +kernel

/-- **C107** Documented defaults are the bound ones, with the two exceptions `otherDefault`. -/
theorem C107_defaults {e : String × List (List Stub.Param)} (he : e ∈ Stub.table) (hd : e.1 ∉ different) {k i : Nat}
    {doc : List Stub.Param} {o : Overload} {p : Stub.Param} {q : Param} {l : Lit} (hk : e.2[k]? = some doc) (ho : (bound e.1)[k]? = some o)
    (hp : doc[i]? = some p) (hq : o.params[i]? = some q) (hx : (e.1, p.name) ∉ otherDefault) (hl : p.dflt = some l) : q.dflt = some l := by
  have := List.all_eq_true.mp defaults_checked e he
  simp only [Bool.or_eq_true, List.contains_iff_mem, hd, false_or, sameDefaults, List.all_eq_true] at this
  have h := this (doc, o) (List.mem_of_getElem? (i := k) (by rw [List.getElem?_zip_eq_some]; exact ⟨hk, ho⟩)) (p, q)
    (List.mem_of_getElem? (i := i) (by rw [List.getElem?_zip_eq_some]; exact ⟨hp, hq⟩))
  simp only [hx, hl, Option.isNone_some, Bool.false_eq_true, false_or, beq_iff_eq] at h
  exact h.symm

/-- **C107** is refuted for two defaults: the damping of `createSOTLayer` is 0.011 and documented as 0.11, the write frequency of
`GroupInteraction.runSimulation` is 1e-11 and documented as 1e-13. -/
theorem C107_defaults_refuted :
    (∃ doc o p q, Stub.table.lookup "Layer.createSOTLayer" = some [doc] ∧ bound "Layer.createSOTLayer" = [o] ∧ doc[7]? = some p ∧
      o.params[7]? = some q ∧ p.name = "damping" ∧ p.dflt = some (.num 11 (-2)) ∧ q.dflt = some (.num 11 (-3))) ∧
    (∃ doc o p q, Stub.table.lookup "reservoir.GroupInteraction.runSimulation" = some [doc] ∧
      bound "reservoir.GroupInteraction.runSimulation" = [o] ∧ doc[2]? = some p ∧ o.params[2]? = some q ∧ p.name = "writeFrequency" ∧
      p.dflt = some (.num 1 (-13)) ∧ q.dflt = some (.num 1 (-11))) := by
  refine ⟨⟨_, _, _, _, rfl, rfl, rfl, rfl, rfl, rfl, rfl⟩, ⟨_, _, _, _, rfl, rfl, rfl, rfl, rfl, rfl, rfl⟩⟩

/-- The hypotheses are met: `stack.SeriesStack.runSimulation(1, writeFrequency=2)` is taken as documented. -/
example : ∃ doc o, Stub.table.lookup "stack.SeriesStack.runSimulation" = some [doc] ∧ bound "stack.SeriesStack.runSimulation" = [o] ∧
    Means doc [1] [("writeFrequency", 2)] [some 1, none, some 2] ∧ fill o.shape [1] [("writeFrequency", 2)] = some [some 1, none, some 2] :=
  ⟨_, _, rfl, rfl, (fill_iff _ (by decide) _ _ _).mp rfl, rfl⟩

end Bind
