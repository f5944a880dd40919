import Verif.Props.BindCalls

/-!
# C108: overloads; C109: `CVector` as a sequence; C110: lists for vectors and names of the module
-/

set_option linter.unusedSectionVars false

namespace Bind
variable {T : Type} [Scalar T]

/-! ## C108 -/

theorem fits_mono : ∀ (t : Ty) (v : Val T), fits false t v = true → fits true t v = true := by
  intro t
  induction t with
  | list t ih =>
    intro v h
    simp only [fits] at h ⊢
    cases hv : v.items with
    | none => simp [hv] at h
    | some l =>
      simp only [hv, List.all_eq_true] at h ⊢
      exact fun x hx => ih x (h x hx)
  | obj c => intro v h; cases c <;> cases v <;> simp_all [fits]
  | _ => intro v h; cases v <;> simp_all [fits]

theorem loads_mono : ∀ (t : Ty) (v : Val T), loads false t v = true → loads true t v = true := by
  intro t
  induction t with
  | list t ih =>
    intro v h
    simp only [loads] at h ⊢
    cases hv : v.items with
    | none => simp [hv] at h
    | some l =>
      simp only [hv, List.all_eq_true] at h ⊢
      exact fun x hx => ih x (h x hx)
  | obj c =>
    intro v h
    cases c <;> simp only [loads, Bool.or_eq_true, Bool.false_and, Bool.false_eq_true, or_false] at h ⊢ <;>
      first | exact .inl (fits_mono _ v h) | exact fits_mono _ v h
  | _ => intro v h; exact fits_mono _ v h

/-- pybind11's implicit conversion of a list to `CVector` never succeeds: there is no constructor with one argument. -/
theorem implicit_false (v : Val T) : implicit v = false := by
  have : vectorInit.accept (fits (T := T) true) [v] [] = none := rfl
  simp [implicit, this]

/-- So conversions are those without implicit ones. -/
theorem loads_fits (c : Bool) : ∀ (t : Ty) (v : Val T), loads c t v = fits c t v := by
  intro t
  induction t with
  | list t ih =>
    intro v
    simp only [loads, fits]
    cases v.items with
    | none => rfl
    | some l => simp only [funext ih]
  | obj d => intro v; cases d <;> simp [loads, implicit_false]
  | _ => intro v; rfl

theorem allFit_mono : ∀ (ps : List Param) (f : List (Option (Val T))), allFit (loads false) ps f = true → allFit (loads true) ps f = true
  | [], [], _ => rfl
  | [], _ :: _, h => by simp [allFit] at h
  | _ :: _, [], h => by simp [allFit] at h
  | p :: ps, none :: f, h => allFit_mono ps f h
  | p :: ps, some v :: f, h => by
    simp only [allFit, Bool.and_eq_true] at h ⊢
    exact ⟨loads_mono _ _ h.1, allFit_mono ps f h.2⟩

theorem accept_mono {o : Overload} {pos : List (Val T)} {kw : List (String × Val T)} {f : List (Option (Val T))}
    (h : o.accept (loads false) pos kw = some f) : o.accept (loads true) pos kw = some f := by
  unfold Overload.accept at h ⊢
  cases hf : fill o.shape pos kw with
  | none => simp [hf] at h
  | some g =>
    simp only [hf] at h ⊢
    split at h
    · rename_i ha
      rw [if_pos (allFit_mono _ _ ha)]
      exact h
    · simp at h

theorem firstOf_some {c : Bool} : ∀ {os : List Overload} {pos : List (Val T)} {kw : List (String × Val T)} {r : String × List (Option (Val T))},
    firstOf c os pos kw = some r → ∃ o ∈ os, o.target = r.1 ∧ o.accept (loads c) pos kw = some r.2
  | o :: os, pos, kw, r, h => by
    simp only [firstOf] at h
    cases ha : o.accept (loads c) pos kw with
    | some f =>
      simp only [ha, Option.some.injEq] at h
      subst h
      exact ⟨o, by simp, rfl, ha⟩
    | none =>
      simp only [ha] at h
      obtain ⟨q, hq, h⟩ := firstOf_some h
      exact ⟨q, by simp [hq], h⟩

theorem firstOf_none {c : Bool} : ∀ {os : List Overload} {pos : List (Val T)} {kw : List (String × Val T)},
    firstOf c os pos kw = none → ∀ o ∈ os, o.accept (loads c) pos kw = none
  | o :: os, pos, kw, h, q, hq => by
    simp only [firstOf] at h
    cases ha : o.accept (loads c) pos kw with
    | some f => simp [ha] at h
    | none =>
      simp only [ha] at h
      rcases List.mem_cons.mp hq with rfl | hq
      · exact ha
      · exact firstOf_none h q hq

/-- An overload fits a call: its arguments can be assigned and converted. -/
def Fits (o : Overload) (pos : List (Val T)) (kw : List (String × Val T)) (f : List (Option (Val T))) : Prop := o.accept (loads true) pos kw = some f

/-- No call fits two overloads of `os` that call different functions. -/
def Unambiguous (T : Type) [Scalar T] (os : List Overload) : Prop := ∀ (pos : List (Val T)) (kw : List (String × Val T)) (o q : Overload)
  (f g : List (Option (Val T))), o ∈ os → q ∈ os → Fits o pos kw f → Fits q pos kw g → o.target = q.target ∧ f = g

theorem dispatch_iff {os : List Overload} (hu : Unambiguous T os) {pos : List (Val T)} {kw : List (String × Val T)} {t : String}
    {f : List (Option (Val T))} : dispatch os pos kw = some (t, f) ↔ ∃ o ∈ os, o.target = t ∧ Fits o pos kw f := by
  have key : ∀ r, (∃ o ∈ os, o.target = r.1 ∧ Fits o pos kw r.2) → (∃ o ∈ os, o.target = t ∧ Fits o pos kw f) → r = (t, f) := by
    rintro ⟨t', f'⟩ ⟨o, ho, e, h⟩ ⟨q, hq, e', h'⟩
    obtain ⟨h1, h2⟩ := hu pos kw o q _ _ ho hq h h'
    rw [Prod.mk.injEq]
    exact ⟨e.symm.trans (h1.trans e'), h2⟩
  have two : ∀ r, firstOf true os pos kw = some r → ∃ o ∈ os, o.target = r.1 ∧ Fits o pos kw r.2 := fun r hr => firstOf_some hr
  have one : ∀ r, firstOf false os pos kw = some r → ∃ o ∈ os, o.target = r.1 ∧ Fits o pos kw r.2 := fun r hr => by
    obtain ⟨o, ho, e, h⟩ := firstOf_some hr
    exact ⟨o, ho, e, accept_mono h⟩
  have back : (∃ o ∈ os, o.target = t ∧ Fits o pos kw f) → firstOf true os pos kw = some (t, f) := fun h => by
    cases hr : firstOf true os pos kw with
    | some r => rw [key r (two r hr) h]
    | none =>
      obtain ⟨o, ho, _, hf⟩ := h
      rw [Fits, firstOf_none hr o ho] at hf
      simp at hf
  unfold dispatch
  by_cases hl : 1 < os.length
  · rw [if_pos hl]
    cases hr : firstOf false os pos kw with
    | some r =>
      refine ⟨fun h => ?_, fun h => by rw [key r (one r hr) h]⟩
      have := one r hr
      rw [Option.some.inj h] at this
      exact this
    | none => exact ⟨fun h => two _ h, back⟩
  · rw [if_neg hl]
    exact ⟨fun h => two _ h, back⟩

theorem Fits.fill {o : Overload} {pos : List (Val T)} {kw : List (String × Val T)} {f : List (Option (Val T))} (h : Fits o pos kw f) :
    fill o.shape pos kw = some f ∧ allFit (loads true) o.params f = true := by
  unfold Fits Overload.accept at h
  cases hf : Bind.fill o.shape pos kw with
  | none => simp [hf] at h
  | some g =>
    simp only [hf] at h
    split at h
    · rename_i ha
      have := Option.some.inj h
      exact ⟨by rw [this], this ▸ ha⟩
    · simp at h

theorem fill_unnamed {α : Type} : ∀ (s : List (Option String × Bool)), (∀ p ∈ s, p = (none, false)) → ∀ (pos : List α) (kw : List (String × α)) (f : List (Option α)),
    fill s pos kw = some f → kw = [] ∧ f = pos.map some ∧ pos.length = s.length
  | [], _, [], kw, f, h => by
    cases kw with
    | nil => simp [Bind.fill] at h; simp [h]
    | cons p kw => simp [Bind.fill] at h
  | [], _, _ :: _, kw, f, h => by simp [Bind.fill] at h
  | p :: s, hs, [], kw, f, h => by
    rw [hs p (by simp)] at h
    simp [Bind.fill] at h
  | p :: s, hs, a :: as, kw, f, h => by
    rw [hs p (by simp)] at h
    simp only [Bind.fill, Option.bind_none, Option.isSome_none, Bool.false_eq_true, if_false, Option.map_eq_some_iff] at h
    obtain ⟨f', h, rfl⟩ := h
    obtain ⟨h1, h2, h3⟩ := fill_unnamed s (fun q hq => hs q (by simp [hq])) as kw f' h
    exact ⟨h1, by simp [h2], by simp [h3]⟩

/-- Overloads with positional parameters only are told apart by the number of arguments or by a parameter whose types exclude each other. -/
theorem apart {o q : Overload} (ho : ∀ p ∈ o.shape, p = (none, false)) (hq : ∀ p ∈ q.shape, p = (none, false))
    (h : o.params.length ≠ q.params.length ∨ ∃ (i : Nat) (t u : Ty), (o.params.map (·.ty))[i]? = some t ∧ (q.params.map (·.ty))[i]? = some u ∧
      ∀ v : Val T, loads true t v = true → loads true u v = true → False)
    {pos : List (Val T)} {kw : List (String × Val T)} {f g : List (Option (Val T))} (hf : Fits o pos kw f) (hg : Fits q pos kw g) : False := by
  obtain ⟨f1, f2⟩ := hf.fill
  obtain ⟨g1, g2⟩ := hg.fill
  obtain ⟨_, ef, lf⟩ := fill_unnamed _ ho _ _ _ f1
  obtain ⟨_, eg, lg⟩ := fill_unnamed _ hq _ _ _ g1
  rcases h with h | ⟨i, t, u, ht, hu, h⟩
  · simp only [Overload.shape, List.length_map] at lf lg
    exact h (lf.symm.trans lg)
  · have get : ∀ (ps : List Param) (vs : List (Val T)) (i : Nat) (t : Ty), allFit (loads true) ps (vs.map some) = true → (ps.map (·.ty))[i]? = some t →
        ∃ v, vs[i]? = some v ∧ loads true t v = true := by
      intro ps
      induction ps with
      | nil => intro vs i t _ h; simp at h
      | cons p ps ih =>
        intro vs i t ha h
        cases vs with
        | nil => simp [allFit] at ha
        | cons v vs =>
          simp only [List.map_cons, allFit, Bool.and_eq_true] at ha
          cases i with
          | zero =>
            simp only [List.map_cons, List.getElem?_cons_zero, Option.some.injEq] at h
            exact ⟨v, by simp, h ▸ ha.1⟩
          | succ i =>
            obtain ⟨w, hw⟩ := ih vs i t ha.2 (by simpa using h)
            exact ⟨w, by simpa using hw⟩
    obtain ⟨v, hv, h1⟩ := get _ pos i t (ef ▸ f2) ht
    obtain ⟨w, hw, h2⟩ := get _ pos i u (eg ▸ g2) hu
    rw [hv] at hw
    exact h v h1 (Option.some.inj hw ▸ h2)

theorem unambiguous_one (o : Overload) : Unambiguous T [o] := by
  intro pos kw a b f g ha hb hf hg
  simp only [List.mem_singleton] at ha hb
  subst ha hb
  exact ⟨rfl, Option.some.inj (hf.symm.trans hg)⟩

theorem unambiguous_cons {o : Overload} {os : List Overload} (h : Unambiguous T os)
    (ho : ∀ q ∈ os, ∀ (pos : List (Val T)) (kw : List (String × Val T)) (f g : List (Option (Val T))), Fits o pos kw f → Fits q pos kw g →
      o.target = q.target ∧ f = g) : Unambiguous T (o :: os) := by
  intro pos kw a b f g ha hb hf hg
  rcases List.mem_cons.mp ha with rfl | ha'
  · rcases List.mem_cons.mp hb with rfl | hb'
    · exact ⟨rfl, Option.some.inj (hf.symm.trans hg)⟩
    · exact ho b hb' pos kw f g hf hg
  · rcases List.mem_cons.mp hb with rfl | hb'
    · obtain ⟨h1, h2⟩ := ho a ha' pos kw g f hg hf
      exact ⟨h1.symm, h2.symm⟩
    · exact h pos kw a b f g ha' hb' hf hg

theorem no_double_list (t : Ty) (v : Val T) : loads true .double v = true → loads true (.list t) v = true → False := by
  cases v <;> simp [loads, fits, Val.isIndex, Val.items]

theorem no_vector_uints (v : Val T) : loads true (.obj .CVector) v = true → loads true (.list .uint) v = true → False := by
  rw [loads_fits, loads_fits]
  cases v <;> simp [fits, Val.isIndex, Val.items]

theorem no_vector_reference (v : Val T) : loads true (.obj .CVector) v = true → loads true .reference v = true → False := by
  rw [loads_fits, loads_fits]
  cases v <;> simp [fits]

theorem no_driver_double (v : Val T) : loads true (.obj .ScalarDriver) v = true → loads true .double v = true → False := by
  rw [loads_fits, loads_fits]
  cases v <;> simp [fits, Val.isIndex]

theorem no_drivers_vector (v : Val T) : loads true (.list (.obj .ScalarDriver)) v = true → loads true (.obj .CVector) v = true → False := by
  rw [loads_fits, loads_fits]
  cases v <;> simp [fits, Val.items]

/-- All overloaded functions but the constructor of `Junction`. -/
def overloaded : List (List Overload) := [
  [⟨"AxialDriver::AxialDriver(ScalarDriver, ScalarDriver, ScalarDriver)", [arg (.obj .ScalarDriver), arg (.obj .ScalarDriver), arg (.obj .ScalarDriver)]⟩,
    ⟨"AxialDriver::AxialDriver(vector<ScalarDriver>)", [arg (.list (.obj .ScalarDriver))]⟩,
    ⟨"AxialDriver::AxialDriver(T, T, T)", [arg .double, arg .double, arg .double]⟩,
    ⟨"AxialDriver::AxialDriver(CVector)", [arg (.obj .CVector)]⟩],
  [⟨"AxialDriver::applyMask(CVector)", [arg (.obj .CVector)]⟩, ⟨"AxialDriver::applyMask(vector<unsigned int>)", [arg (.list .uint)]⟩],
  [⟨"Layer::setReferenceLayer(CVector)", [arg (.obj .CVector)]⟩, ⟨"Layer::setReferenceLayer(Reference)", [arg .reference]⟩],
  [⟨"Stack::setCouplingStrength(T)", [named "coupling" .double]⟩, ⟨"Stack::setCouplingStrength(vector<T>)", [named "coupling" (.list .double)]⟩],
  [⟨"Stack::getLog(unsigned int)", [arg .uint]⟩, ⟨"Stack::getLog()", []⟩],
  [⟨"Junction::setLayerOerstedFieldDriver", [arg .str, arg (.obj .AxialDriver)]⟩, ⟨"Junction::setLayerOerstedFieldDriver", [arg .str, arg (.obj .AxialDriver)]⟩],
  [⟨"GroupInteraction::getLog(unsigned int)", [arg .uint]⟩, ⟨"GroupInteraction::getLog(unsigned int)", [arg .uint]⟩]]

theorem overloaded_checked : (table.all fun e => e.1 == "Junction.__init__" || e.2.length == 1 || overloaded.contains e.2) = true := by
  decide +kernel

theorem coupling_apart {pos : List (Val T)} {kw : List (String × Val T)} {f g : List (Option (Val T))}
    (hf : Fits ⟨"Stack::setCouplingStrength(T)", [named "coupling" .double]⟩ pos kw f)
    (hg : Fits ⟨"Stack::setCouplingStrength(vector<T>)", [named "coupling" (.list .double)]⟩ pos kw g) : False := by
  obtain ⟨f1, f2⟩ := hf.fill
  obtain ⟨g1, g2⟩ := hg.fill
  have e : f = g := Option.some.inj (f1.symm.trans g1)
  subst e
  have m := (fill_iff [Stub.must "coupling"] (by decide) pos kw f).mp f1
  match f, m.length with
  | [none], _ => exact m.needed 0 _ rfl rfl rfl
  | [some v], _ =>
    simp only [named, allFit, Bool.and_true] at f2 g2
    exact no_double_list _ v f2 g2

theorem overloaded_unambiguous : ∀ os ∈ overloaded, Unambiguous T os := by
  intro os h
  simp only [overloaded, List.mem_cons, List.not_mem_nil, or_false] at h
  rcases h with rfl | rfl | rfl | rfl | rfl | rfl | rfl
  · refine unambiguous_cons (unambiguous_cons (unambiguous_cons (unambiguous_one _) ?_) ?_) ?_ <;> intro q hq pos kw f g hf hg <;>
      simp only [List.mem_cons, List.not_mem_nil, or_false] at hq
    · subst hq
      exact (apart (by decide) (by decide) (.inl (by decide)) hf hg).elim
    · rcases hq with rfl | rfl
      · exact (apart (by decide) (by decide) (.inl (by decide)) hf hg).elim
      · exact (apart (by decide) (by decide) (.inr ⟨0, _, _, rfl, rfl, no_drivers_vector⟩) hf hg).elim
    · rcases hq with rfl | rfl | rfl
      · exact (apart (by decide) (by decide) (.inl (by decide)) hf hg).elim
      · exact (apart (by decide) (by decide) (.inr ⟨0, _, _, rfl, rfl, no_driver_double⟩) hf hg).elim
      · exact (apart (by decide) (by decide) (.inl (by decide)) hf hg).elim
  · refine unambiguous_cons (unambiguous_one _) ?_
    intro q hq pos kw f g hf hg
    obtain rfl := List.mem_singleton.mp hq
    exact (apart (by decide) (by decide) (.inr ⟨0, _, _, rfl, rfl, no_vector_uints⟩) hf hg).elim
  · refine unambiguous_cons (unambiguous_one _) ?_
    intro q hq pos kw f g hf hg
    obtain rfl := List.mem_singleton.mp hq
    exact (apart (by decide) (by decide) (.inr ⟨0, _, _, rfl, rfl, no_vector_reference⟩) hf hg).elim
  · refine unambiguous_cons (unambiguous_one _) ?_
    intro q hq pos kw f g hf hg
    obtain rfl := List.mem_singleton.mp hq
    exact (coupling_apart hf hg).elim
  · refine unambiguous_cons (unambiguous_one _) ?_
    intro q hq pos kw f g hf hg
    obtain rfl := List.mem_singleton.mp hq
    exact (apart (by decide) (by decide) (.inl (by decide)) hf hg).elim
  · refine unambiguous_cons (unambiguous_one _) ?_
    intro q hq pos kw f g hf hg
    obtain rfl := List.mem_singleton.mp hq
    exact ⟨rfl, Option.some.inj (hf.symm.trans hg)⟩
  · refine unambiguous_cons (unambiguous_one _) ?_
    intro q hq pos kw f g hf hg
    obtain rfl := List.mem_singleton.mp hq
    exact ⟨rfl, Option.some.inj (hf.symm.trans hg)⟩

/-- **C108** Every call of a bound function other than the constructor of `Junction` runs the overload that it fits, and there is at most one:
the order of the definitions and the pass without conversions do not matter. -/
theorem C108_overloads {e : String × List Overload} (he : e ∈ table) (hj : e.1 ≠ "Junction.__init__") :
    Unambiguous T e.2 ∧ ∀ (pos : List (Val T)) (kw : List (String × Val T)) (t : String) (f : List (Option (Val T))),
      dispatch e.2 pos kw = some (t, f) ↔ ∃ o ∈ e.2, o.target = t ∧ Fits o pos kw f := by
  have hu : Unambiguous T e.2 := by
    have := List.all_eq_true.mp overloaded_checked e he
    have hj' : (e.1 == "Junction.__init__") = false := by simpa using hj
    simp only [hj', Bool.false_or, Bool.or_eq_true, beq_iff_eq, List.contains_iff_mem] at this
    rcases this with h | h
    · obtain ⟨o, ho⟩ := List.length_eq_one_iff.mp h
      rw [ho]
      exact unambiguous_one o
    · exact overloaded_unambiguous _ h
  exact ⟨hu, fun pos kw t f => dispatch_iff hu⟩

/-! ### The constructor of `Junction` -/

/-- The overloads of the constructor. -/
def plainInit : Overload := ⟨"Junction::Junction(layers)", [named "layers" (.list (.obj .Layer))]⟩
def classicInit : Overload := ⟨"Junction::Junction(layers, Rp, Rap)",
  [named "layers" (.list (.obj .Layer)), opt "Rp" .double (.num 1 2), opt "Rap" .double (.num 2 2)]⟩
def stripInit : Overload := ⟨"Junction::Junction(layers, Rx0, Ry0, AMR_X, AMR_Y, SMR_X, SMR_Y, AHE)",
  [named "layers" (.list (.obj .Layer)), named "Rx0" (.list .double), named "Ry0" (.list .double), named "AMR_X" (.list .double),
    named "AMR_Y" (.list .double), named "SMR_X" (.list .double), named "SMR_Y" (.list .double), named "AHE" (.list .double)]⟩

theorem junction_bound : bound "Junction.__init__" = [plainInit, classicInit, stripInit] := by decide +kernel

open Stub in
theorem plain_means {α : Type} {pos : List α} {kw : List (String × α)} {f : List (Option α)} :
    fill plainInit.shape pos kw = some f ↔ Means [must "layers"] pos kw f :=
  fill_iff [must "layers"] (by decide) pos kw f

open Stub in
theorem classic_means {α : Type} {pos : List α} {kw : List (String × α)} {f : List (Option α)} :
    fill classicInit.shape pos kw = some f ↔ Means [must "layers", may "Rp", may "Rap"] pos kw f :=
  fill_iff [must "layers", may "Rp", may "Rap"] (by decide) pos kw f

open Stub in
theorem strip_means {α : Type} {pos : List α} {kw : List (String × α)} {f : List (Option α)} :
    fill stripInit.shape pos kw = some f ↔
      Means [must "layers", must "Rx0", must "Ry0", must "AMR_X", must "AMR_Y", must "SMR_X", must "SMR_Y", must "AHE"] pos kw f :=
  fill_iff [must "layers", must "Rx0", must "Ry0", must "AMR_X", must "AMR_Y", must "SMR_X", must "SMR_Y", must "AHE"] (by decide) pos kw f

open Stub in
theorem plain_classic {α : Type} {pos : List α} {kw : List (String × α)} {x : Option α} :
    fill plainInit.shape pos kw = some [x] ↔ fill classicInit.shape pos kw = some [x, none, none] := by
  rw [plain_means, classic_means]
  constructor
  · intro m
    have hl : pos.length ≤ 1 := m.few
    have no : ∀ n, n ≠ "layers" → kw.lookup n = none := fun n hn => lookup_none.mpr fun v hv => by
      obtain ⟨i, p, _, hp, e⟩ := m.known _ _ hv
      match i, hp with
      | 0, hp =>
        cases hp
        exact hn e.symm
    refine ⟨rfl, by simp; omega, fun i hi => ?_, fun i p hi hp => ?_, fun k v hk => ?_, fun i p hp ho => ?_⟩
    · match i, hi with
      | 0, hi => exact m.positional 0 hi
      | i + 1, hi => omega
    · match i, hp with
      | 0, hp => exact m.keyword 0 p hi hp
      | 1, hp => cases hp; rw [no _ (by decide)]; rfl
      | 2, hp => cases hp; rw [no _ (by decide)]; rfl
    · obtain ⟨i, p, hi, hp, e⟩ := m.known k v hk
      match i, hp with
      | 0, hp => exact ⟨0, p, hi, hp, e⟩
    · match i, hp with
      | 0, hp => exact m.needed 0 p hp ho
      | 1, hp => cases hp; cases ho
      | 2, hp => cases hp; cases ho
  · intro m
    have hl : pos.length ≤ 1 := by
      by_contra h
      have h1 := m.positional 1 (by omega)
      rw [List.getElem?_eq_getElem (show 1 < pos.length by omega)] at h1
      simp at h1
    refine ⟨rfl, hl, fun i hi => ?_, fun i p hi hp => ?_, fun k v hk => ?_, fun i p hp ho => ?_⟩
    · match i, hi with
      | 0, hi => exact m.positional 0 hi
      | i + 1, hi => omega
    · match i, hp with
      | 0, hp => exact m.keyword 0 p hi hp
    · obtain ⟨i, p, hi, hp, e⟩ := m.known k v hk
      match i, hp with
      | 0, hp => exact ⟨0, p, hi, hp, e⟩
      | 1, hp =>
        have := m.keyword 1 p (by omega) hp
        rw [e] at this
        exact absurd hk (lookup_none.mp (Option.some.inj this).symm v)
      | 2, hp =>
        have := m.keyword 2 p (by omega) hp
        rw [e] at this
        exact absurd hk (lookup_none.mp (Option.some.inj this).symm v)
    · match i, hp with
      | 0, hp => exact m.needed 0 p hp ho

open Stub in
theorem strip_apart {α : Type} {pos : List α} {kw : List (String × α)} {f g : List (Option α)} (hf : fill stripInit.shape pos kw = some f) :
    fill classicInit.shape pos kw ≠ some g := by
  intro hg
  rw [strip_means] at hf
  rw [classic_means] at hg
  have hl : pos.length ≤ 3 := hg.few
  have h7 := hf.keyword 7 (must "AHE") (by omega) rfl
  have hne := hf.needed 7 (must "AHE") rfl rfl
  rw [h7] at hne
  cases hv : kw.lookup (must "AHE").name with
  | none => exact hne (by rw [hv])
  | some v =>
    obtain ⟨i, p, _, hp, e⟩ := hg.known _ v (lookup_some hv)
    match i, hp with
    | 0, hp => cases hp; exact absurd e (by decide)
    | 1, hp => cases hp; exact absurd e (by decide)
    | 2, hp => cases hp; exact absurd e (by decide)

theorem accept_eq {fit : Ty → Val T → Bool} {o : Overload} {pos : List (Val T)} {kw : List (String × Val T)} {f : List (Option (Val T))} :
    o.accept fit pos kw = some f ↔ fill o.shape pos kw = some f ∧ allFit fit o.params f = true := by
  unfold Overload.accept
  cases hf : fill o.shape pos kw with
  | none => simp
  | some g =>
    by_cases ha : allFit fit o.params g = true
    · simp only [ha, if_true, Option.some.injEq]
      exact ⟨fun e => ⟨e, e ▸ ha⟩, fun e => e.1⟩
    · simp only [ha, Bool.false_eq_true, if_false, Option.some.injEq, reduceCtorEq, false_iff, not_and]
      exact fun e => e ▸ ha

theorem fill_length {α : Type} : ∀ (s : List (Option String × Bool)) (pos : List α) (kw : List (String × α)) (f : List (Option α)),
    fill s pos kw = some f → f.length = s.length
  | [], [], kw, f, h => by
    cases kw with
    | nil => simp [fill] at h; simp [h]
    | cons p kw => simp [fill] at h
  | [], _ :: _, kw, f, h => by simp [fill] at h
  | (n, o) :: s, a :: as, kw, f, h => by
    simp only [fill] at h
    split at h
    · simp at h
    · obtain ⟨f', h', rfl⟩ := Option.map_eq_some_iff.mp h
      simp [fill_length s as kw f' h']
  | (n, o) :: s, [], kw, f, h => by
    simp only [fill] at h
    split at h
    · obtain ⟨f', h', rfl⟩ := Option.map_eq_some_iff.mp h
      simp [fill_length s [] _ f' h']
    · split at h
      · obtain ⟨f', h', rfl⟩ := Option.map_eq_some_iff.mp h
        simp [fill_length s [] kw f' h']
      · simp at h

/-- The first two overloads take the same calls if no resistance is given. -/
theorem plain_classic_accept {fit : Ty → Val T → Bool} {pos : List (Val T)} {kw : List (String × Val T)} {x : Option (Val T)} :
    plainInit.accept fit pos kw = some [x] ↔ classicInit.accept fit pos kw = some [x, none, none] := by
  rw [accept_eq, accept_eq, plain_classic]
  cases x <;> simp [plainInit, classicInit, allFit]

theorem plain_shape {fit : Ty → Val T → Bool} {pos : List (Val T)} {kw : List (String × Val T)} {f : List (Option (Val T))}
    (h : plainInit.accept fit pos kw = some f) : ∃ x, f = [x] :=
  List.length_eq_one_iff.mp (fill_length _ _ _ _ (accept_eq.mp h).1)

theorem classic_shape {fit : Ty → Val T → Bool} {pos : List (Val T)} {kw : List (String × Val T)} {f : List (Option (Val T))}
    (h : classicInit.accept fit pos kw = some f) : ∃ x y z, f = [x, y, z] :=
  List.length_eq_three.mp (fill_length _ _ _ _ (accept_eq.mp h).1)

/-- The second overload is only reached with a resistance. -/
def Given (f : List (Option (Val T))) : Prop := f[1]? ≠ some none ∨ f[2]? ≠ some none

theorem junction_first {c : Bool} {pos : List (Val T)} {kw : List (String × Val T)} {t : String} {f : List (Option (Val T))} :
    firstOf c [plainInit, classicInit, stripInit] pos kw = some (t, f) ↔
      (t = plainInit.target ∧ plainInit.accept (loads c) pos kw = some f) ∨
      (t = classicInit.target ∧ classicInit.accept (loads c) pos kw = some f ∧ Given f) ∨
      (t = stripInit.target ∧ stripInit.accept (loads c) pos kw = some f) := by
  have e23 : ∀ f g, stripInit.accept (loads c) pos kw = some f → classicInit.accept (loads c) pos kw = some g → False := fun f g h h' =>
    strip_apart (accept_eq.mp h).1 (accept_eq.mp h').1
  have e12 : ∀ f g, plainInit.accept (loads c) pos kw = some f → classicInit.accept (loads c) pos kw = some g → ¬ Given g := by
    intro f g h h'
    obtain ⟨x, rfl⟩ := plain_shape h
    have := plain_classic_accept.mp h
    rw [h'] at this
    rw [Option.some.inj this]
    simp [Given]
  have e21 : ∀ g, classicInit.accept (loads c) pos kw = some g → plainInit.accept (loads c) pos kw = none → Given g := by
    intro g h h'
    obtain ⟨x, y, z, rfl⟩ := classic_shape h
    by_contra hg
    have : y = none ∧ z = none := by
      simp only [Given, not_or, not_not] at hg
      exact ⟨by simpa using hg.1, by simpa using hg.2⟩
    obtain ⟨rfl, rfl⟩ := this
    rw [plain_classic_accept.mpr h] at h'
    simp at h'
  have e13 : ∀ f g, plainInit.accept (loads c) pos kw = some f → stripInit.accept (loads c) pos kw = some g → False := by
    intro f g h h'
    obtain ⟨x, rfl⟩ := plain_shape h
    exact e23 g _ h' (plain_classic_accept.mp h)
  simp only [firstOf]
  cases h1 : plainInit.accept (loads c) pos kw with
  | some f1 =>
    simp only [Option.some.injEq, Prod.mk.injEq]
    constructor
    · rintro ⟨rfl, rfl⟩
      exact .inl ⟨rfl, rfl⟩
    · rintro (⟨rfl, rfl⟩ | ⟨_, h, hg⟩ | ⟨_, h⟩)
      · exact ⟨rfl, rfl⟩
      · exact (e12 _ _ h1 h hg).elim
      · exact (e13 _ _ h1 h).elim
  | none =>
    cases h2 : classicInit.accept (loads c) pos kw with
    | some f2 =>
      simp only [Option.some.injEq, Prod.mk.injEq, reduceCtorEq, and_false, false_or]
      constructor
      · rintro ⟨rfl, rfl⟩
        exact .inl ⟨rfl, rfl, e21 _ h2 h1⟩
      · rintro (⟨rfl, rfl, _⟩ | ⟨_, h⟩)
        · exact ⟨rfl, rfl⟩
        · exact (e23 _ _ h h2).elim
    | none =>
      simp only [reduceCtorEq, false_and, and_false, false_or]
      cases h3 : stripInit.accept (loads c) pos kw with
      | some f3 =>
        simp only [Option.some.injEq, Prod.mk.injEq]
        exact ⟨fun ⟨a, b⟩ => ⟨a.symm, b⟩, fun ⟨a, b⟩ => ⟨a.symm, b⟩⟩
      | none => simp

/-- **C108** The constructor of `Junction`: the overload that fits; with the layers only, the one without resistances, so the defaults of
`Rp` and `Rap` count only if the other one is given. -/
theorem C108_junction {pos : List (Val T)} {kw : List (String × Val T)} {t : String} {f : List (Option (Val T))} :
    dispatch (bound "Junction.__init__") pos kw = some (t, f) ↔
      (t = plainInit.target ∧ Fits plainInit pos kw f) ∨ (t = classicInit.target ∧ Fits classicInit pos kw f ∧ Given f) ∨
      (t = stripInit.target ∧ Fits stripInit pos kw f) := by
  rw [junction_bound]
  unfold dispatch Fits
  rw [if_pos (by decide), ← junction_first]
  cases h : firstOf false [plainInit, classicInit, stripInit] pos kw with
  | none => rfl
  | some r =>
    obtain ⟨t', f'⟩ := r
    have : firstOf true [plainInit, classicInit, stripInit] pos kw = some (t', f') := by
      rw [junction_first] at h ⊢
      rcases h with ⟨a, b⟩ | ⟨a, b, c⟩ | ⟨a, b⟩
      · exact .inl ⟨a, accept_mono b⟩
      · exact .inr (.inl ⟨a, accept_mono b, c⟩)
      · exact .inr (.inr ⟨a, accept_mono b⟩)
    rw [this]

/-- **C108** is refuted for `Junction(layers)`: the call fits two overloads. -/
theorem C108_junction_refuted (layers : Val T) (h : loads true (.list (.obj .Layer)) layers = true) :
    Fits plainInit [layers] [] [some layers] ∧ Fits classicInit [layers] [] [some layers, none, none] ∧
    dispatch (bound "Junction.__init__") [layers] [] = some ("Junction::Junction(layers)", [some layers]) := by
  have h1 : Fits plainInit [layers] [] [some layers] := by
    rw [Fits, accept_eq]
    exact ⟨rfl, by simp [plainInit, named, allFit, h]⟩
  exact ⟨h1, plain_classic_accept.mp h1, C108_junction.mpr (.inl ⟨rfl, h1⟩)⟩

/-- A list of two layers meets the hypothesis; integers are taken for resistances. -/
example : loads (T := T) true (.list (.obj .Layer)) (.list [.obj .Layer (by decide), .obj .Layer (by decide)]) = true ∧
    dispatch (T := T) (bound "Junction.__init__") [.list [.obj .Layer (by decide), .obj .Layer (by decide)]] [("Rap", .int 150)] =
      some ("Junction::Junction(layers, Rp, Rap)", [some (.list [.obj .Layer (by decide), .obj .Layer (by decide)]), none, some (.int 150)]) :=
  ⟨rfl, rfl⟩

/-! ## C109 -/

theorem iterate_get (v : CVec T) : ∀ (n i : Nat), iterate (getItem v) i n = .ok ((List.range n).map fun k => v.get (i + k : Nat), false)
  | 0, i => rfl
  | n + 1, i => by
    have ih := iterate_get v n (i + 1)
    simp only [iterate, getItem, ih, List.range_succ_eq_map, List.map_cons, List.map_map, Nat.add_zero]
    congr 4
    funext k
    simp [Nat.add_right_comm, Nat.add_assoc, Nat.succ_eq_add_one]

/-- **C109** Indices 0, 1, 2 give the components and the length is 3. -/
theorem C109_items (v : CVec T) : len v = 3 ∧ getItem v 0 = .ok v.x ∧ getItem v 1 = .ok v.y ∧ getItem v 2 = .ok v.z := ⟨rfl, rfl, rfl, rfl⟩

/-- **C109** is refuted for iteration (`list(v)`, `for c in v`, `sum(v)`): it never ends, whatever the number of steps; after the three
components it repeats the last one. -/
theorem C109_iterate_refuted (v : CVec T) (n : Nat) :
    ∃ xs, iterate (getItem v) 0 (n + 3) = .ok (xs, false) ∧ xs = v.x :: v.y :: List.replicate (n + 1) v.z := by
  refine ⟨_, iterate_get v (n + 3) 0, ?_⟩
  rw [List.range_succ_eq_map, List.range_succ_eq_map]
  simp only [List.map_cons, List.map_map, Nat.zero_add]
  congr 1
  congr 1
  rw [List.eq_replicate_iff]
  refine ⟨by simp, fun b hb => ?_⟩
  obtain ⟨k, _, rfl⟩ := List.mem_map.mp hb
  simp only [Function.comp, CVec.get, Nat.succ_eq_add_one]
  rw [if_neg (by omega), if_neg (by omega)]

/-- **C109** is refuted for unpacking: `a, b, c = v`, like any other number of names, raises `ValueError`. -/
theorem C109_unpack_refuted (v : CVec T) (n : Nat) : unpack (getItem v) n = .error .valueError := by
  simp [unpack, iterate_get]

/-- **C109** is refuted for indices out of range: none raises, and negative ones do not count from the end. -/
theorem C109_index_refuted (v : CVec T) (i : Int) (h : i < 0 ∨ 2 < i) : getItem v i = .ok v.z := by
  have h0 : i ≠ 0 := by omega
  have h1 : i ≠ 1 := by omega
  simp [getItem, CVec.get, h0, h1]

/-! ## C110 -/

theorem accept_vector {o : Overload} {pos : List (Val T)} {kw : List (String × Val T)} {f : List (Option (Val T))} {i : Nat} {v : Val T}
    {p : Param} (hp : o.params[i]? = some p) (ht : p.ty = .obj .CVector) (hf : Fits o pos kw f) (hv : f[i]? = some (some v)) :
    ∃ w, v = .vector w := by
  have := (accept_eq.mp hf).2
  have get : ∀ (ps : List Param) (f : List (Option (Val T))) (i : Nat), allFit (loads true) ps f = true → ps[i]? = some p → f[i]? = some (some v) →
      loads true p.ty v = true := by
    intro ps
    induction ps with
    | nil => intro f i _ h; simp at h
    | cons q ps ih =>
      intro f i ha hq hv
      match f, i, ha, hv with
      | some x :: f, 0, ha, hv =>
        simp only [List.getElem?_cons_zero, Option.some.injEq] at hq hv
        subst hq hv
        simp only [allFit, Bool.and_eq_true] at ha
        exact ha.1
      | some x :: f, i + 1, ha, hv =>
        simp only [allFit, Bool.and_eq_true] at ha
        exact ih f i ha.2 (by simpa using hq) (by simpa using hv)
      | none :: f, 0, ha, hv => simp at hv
      | none :: f, i + 1, ha, hv => exact ih f i ha (by simpa using hq) (by simpa using hv)
  have h := get _ _ _ this hp hv
  rw [ht, loads_fits] at h
  cases v <;> simp_all [fits]
  rename_i c hc
  cases c <;> simp_all [Cls.isA]
  exact hc rfl

/-- **C110** is refuted for lists: though conversions from lists are declared, no bound function takes anything but a `CVector` for a
parameter of that type. -/
theorem C110_lists_refuted {e : String × List Overload} (_he : e ∈ table) {o : Overload} (_ho : o ∈ e.2) {i : Nat} {p : Param}
    (hp : o.params[i]? = some p) (ht : p.ty = .obj .CVector) {pos : List (Val T)} {kw : List (String × Val T)} {f : List (Option (Val T))}
    (hf : Fits o pos kw f) {l : List (Val T)} : f[i]? ≠ some (some (.list l)) := by
  intro hv
  obtain ⟨w, hw⟩ := accept_vector hp ht hf hv
  cases hw

/-- **C110** The names of the enumerations in the module stand for members of the enumeration that the stub gives, except `none`, which the
stub gives twice. -/
theorem C110_names (n e : String) (h : (n, e) ∈ exported) (hn : n ≠ "none") : moduleName n = some e :=
  (by decide : ∀ p ∈ exported, p.1 ≠ "none" → moduleName p.1 = some p.2) (n, e) h hn

/-- **C110** is refuted for `none`: it stands for the member of `Reference`, and a function with a parameter of type `Axis` refuses it. -/
theorem C110_none_refuted : ("none", "Axis") ∈ exported ∧ moduleName "none" = some "Reference" ∧
    ∀ (size a s c : Val T) (r : String), dispatch (bound "noise.VectorAlphaNoise.__init__") [size, a, s, c, .reference r] [] = none := by
  refine ⟨by decide, by decide, fun size a s c r => ?_⟩
  have : bound "noise.VectorAlphaNoise.__init__" = [⟨"VectorAlphaNoise::VectorAlphaNoise", [named "bufferSize" .uint, named "alpha" .double,
    named "std" .double, named "scale" .double, opt "axis" .axis (.member "all")]⟩] := rfl
  rw [this]
  simp [dispatch, firstOf, Overload.accept, Overload.shape, fill, allFit, loads, fits, opt, named]

/-! ### Which values are taken -/

/-- What Python counts as an integer: integers, truth values, members of enumerations. -/
inductive Counts : Val T → Prop
  | int (i : Int) : Counts (.int i)
  | bool (b : Bool) : Counts (.bool b)
  | axis (a : Axis) : Counts (.axis a)
  | reference (r : String) : Counts (.reference r)
  | mode (m : String) : Counts (.mode m)

/-- What a parameter of each type takes: numbers, and what Python counts as integers, for floating-point parameters; integers in range; truth
values and what Python can test; functions or `None`; objects of the class and, for drivers, of its subclass `NullDriver`; for lists any
sequence of such values, a `CVector` being a sequence of its three components. -/
inductive Takes : Ty → Val T → Prop
  | float (x : T) : Takes .double (.float x)
  | number {v : Val T} : Counts v → Takes .double v
  | uint {i : Int} : 0 ≤ i → i < 2 ^ 32 → Takes .uint (.int i)
  | int {i : Int} : -2 ^ 31 ≤ i → i < 2 ^ 31 → Takes .int (.int i)
  | uintLike {v : Val T} : Counts v → (∀ i, v ≠ .int i) → Takes .uint v
  | intLike {v : Val T} : Counts v → (∀ i, v ≠ .int i) → Takes .int v
  | truth (b : Bool) : Takes .bool (.bool b)
  | nothing : Takes .bool .none
  | test (i : Int) : Takes .bool (.int i)
  | testFloat (x : T) : Takes .bool (.float x)
  | text (s : String) : Takes .str (.str s)
  | axis (a : Axis) : Takes .axis (.axis a)
  | reference (r : String) : Takes .reference (.reference r)
  | mode (m : String) : Takes .mode (.mode m)
  | function : Takes .function .function
  | noFunction : Takes .function .none
  | vector (v : CVec T) : Takes (.obj .CVector) (.vector v)
  | same (c : Cls) (h : c ≠ .CVector) : Takes (.obj c) (.obj c h)
  | null (h : Cls.NullDriver ≠ .CVector) : Takes (.obj .ScalarDriver) (.obj .NullDriver h)
  | list {t : Ty} {l : List (Val T)} : (∀ v ∈ l, Takes t v) → Takes (.list t) (.list l)
  | components {t : Ty} {v : CVec T} : Takes t (.float v.x) → Takes t (.float v.y) → Takes t (.float v.z) → Takes (.list t) (.vector v)

theorem counts_iff (v : Val T) : v.isIndex = true ↔ Counts v := by
  constructor
  · intro h
    cases v <;> first | constructor | simp [Val.isIndex] at h
  · rintro (_ | _ | _ | _ | _) <;> rfl

/-- **C108** A call passes a value for a parameter exactly if the type of the parameter takes it. -/
theorem C108_values (t : Ty) (v : Val T) : loads true t v = true ↔ Takes t v := by
  rw [loads_fits]
  constructor
  · intro h
    induction t generalizing v with
    | list t ih =>
      cases v with
      | list l =>
        simp only [fits, Val.items, List.all_eq_true] at h
        exact .list fun v hv => ih v (h v hv)
      | vector w =>
        simp only [fits, Val.items, List.all_eq_true] at h
        exact .components (ih _ (h _ (by simp))) (ih _ (h _ (by simp))) (ih _ (h _ (by simp)))
      | _ => simp [fits, Val.items] at h
    | obj c =>
      cases v with
      | vector w => cases c <;> simp [fits] at h; exact .vector w
      | obj d hd =>
        cases c <;> cases d <;> simp [fits, Cls.isA] at h <;> first | exact .same _ hd | exact .null hd
      | _ => cases c <;> simp [fits] at h
    | double =>
      cases v with
      | float x => exact .float x
      | _ => exact .number ((counts_iff _).1 (by simpa [fits] using h))
    | uint =>
      cases v with
      | int i => simp only [fits, Bool.and_eq_true, decide_eq_true_eq] at h; exact .uint h.1 h.2
      | _ => exact .uintLike ((counts_iff _).1 (by simpa [fits] using h)) (by simp)
    | int =>
      cases v with
      | int i => simp only [fits, Bool.and_eq_true, decide_eq_true_eq] at h; exact .int h.1 h.2
      | _ => exact .intLike ((counts_iff _).1 (by simpa [fits] using h)) (by simp)
    | _ => cases v <;> first | constructor | simp [fits] at h
  · intro h
    induction h with
    | number h => cases h <;> rfl
    | uint h1 h2 => simp only [fits, h1, h2, decide_true, Bool.and_self]
    | int h1 h2 => simp only [fits, h1, h2, decide_true, Bool.and_self]
    | uintLike h hn => cases h <;> first | rfl | exact absurd rfl (hn _)
    | intLike h hn => cases h <;> first | rfl | exact absurd rfl (hn _)
    | same c hc => cases c <;> rfl
    | list _ ih => simpa [fits, Val.items, List.all_eq_true] using ih
    | components _ _ _ h1 h2 h3 => simp [fits, Val.items, h1, h2, h3]
    | _ => rfl

end Bind
