import Verif.Model.PyHebo
import Mathlib.Data.List.Perm.Basic
import Mathlib.Data.List.Forall2
import Mathlib.Order.Fin.Basic
import Mathlib.Tactic.Ring

set_option linter.unusedSectionVars false

/-!
# Fits with HEBO: C119, C120
-/

namespace Spec

open PyHebo
variable {O V R S : Type}

/-- The names of two dictionaries differ. -/
def NoClash (a b : Params V) : Prop := ∀ p ∈ a, ∀ q ∈ b, p.1 ≠ q.1

/-- `e` is the error of the parameters `p` together with `fixed`. -/
def ErrorOf (fn : Params V → Except Exn R) (errorFn : R → Except Exn S) (fixed p : Params V) (e : S) : Prop :=
  ∃ r, fn (fixed ++ p) = .ok r ∧ errorFn r = .ok e

/-- One round of suggestions, as the optimiser saw it. -/
structure Round (V S : Type) where
  recs : List (Params V)
  errors : List S

/-- The optimiser is led from one state to another by rounds of suggestions and observations, in which every suggestion is
given its own error. -/
inductive Led (H : Optimiser O V S) (n : Nat) (err : Params V → S → Prop) : O → List (Round V S) → O → Prop
  | stop (o) : Led H n err o [] o
  | round {o o1 o2 o3 : O} {b : Round V S} {bs} : H.suggest o n = .ok (b.recs, o1) → List.Forall₂ err b.recs b.errors →
      H.observe o1 b.recs b.errors = .ok o2 → Led H n err o2 bs o3 → Led H n err o (b :: bs) o3

/-- `e` is the error in the front end: the fields, the suggestion and the fixed values, none of them named twice. -/
def FitErrorOf (sim : Params V → Except Exn R) (mse : R → Except Exn S) (hvals : V) (fixed p : Params V) (e : S) : Prop :=
  NoClash [("hvals", hvals)] p ∧ NoClash ([("hvals", hvals)] ++ p) fixed ∧
    ∃ r, sim ([("hvals", hvals)] ++ p ++ fixed) = .ok r ∧ mse r = .ok e

/-- An optimiser that keeps all errors it is shown and knows the least of them. -/
structure Keeps [LinearOrder S] (H : Optimiser O V S) (ys : O → List S) : Prop where
  suggest : ∀ {o n recs o1}, H.suggest o n = .ok (recs, o1) → ys o1 = ys o
  observe : ∀ {o recs es o1}, H.observe o recs es = .ok o1 → ys o1 = ys o ++ es
  ymin : ∀ {o y}, H.ymin o = .ok y → y ∈ ys o ∧ ∀ z ∈ ys o, y ≤ z

end Spec

namespace PyHebo

open Spec
variable {O V R S : Type}

theorem keywords_ok {a b c : Params V} : keywords a b = .ok c ↔ NoClash a b ∧ c = a ++ b := by
  unfold keywords NoClash
  split
  · rename_i h
    simp only [List.any_eq_true, beq_iff_eq] at h
    obtain ⟨q, hq, p, hp, e⟩ := h
    constructor
    · intro h; cases h
    · rintro ⟨h, -⟩; exact absurd e (h p hp q hq)
  · rename_i h
    simp only [List.any_eq_true, beq_iff_eq, not_exists, not_and] at h
    constructor
    · intro e; cases e; exact ⟨fun p hp q hq => h q hq p hp, rfl⟩
    · rintro ⟨-, rfl⟩; rfl

theorem keywords_error {a b : Params V} {e : Exn} : keywords a b = .error e ↔ ¬ NoClash a b ∧ e = .typeError := by
  rcases h : keywords a b with x | c
  · have hn : ¬ NoClash a b := fun ha => by rw [keywords_ok.2 ⟨ha, rfl⟩] at h; cases h
    have : x = .typeError := by
      unfold keywords at h
      split at h
      · cases h; rfl
      · cases h
    subst this
    simp [hn, eq_comm]
  · simp [(keywords_ok.1 h).1]

theorem submit_ok {fixed : Params V} {ss jobs : List (Params V)} :
    submit fixed ss = .ok jobs ↔ (∀ s ∈ ss, NoClash fixed s) ∧ jobs = ss.map (fixed ++ ·) := by
  induction ss generalizing jobs with
  | nil => simp [submit, eq_comm]
  | cons s ss ih =>
    simp only [submit, List.forall_mem_cons, List.map_cons]
    rcases h : keywords fixed s with e | k
    · have := (keywords_error.1 h).1
      simp [Bind.bind, Except.bind, this]
    · obtain ⟨ha, rfl⟩ := keywords_ok.1 h
      rcases h' : submit fixed ss with e | ks
      · have hn : ¬ ∀ s ∈ ss, NoClash fixed s := fun hc => by rw [(ih (jobs := _)).2 ⟨hc, rfl⟩] at h'; cases h'
        simp only [Bind.bind, Except.bind, reduceCtorEq, false_iff]
        exact fun hc => hn hc.1.2
      · obtain ⟨hs, rfl⟩ := ih.1 h'
        simp only [Bind.bind, Except.bind, Except.ok.injEq]
        exact ⟨fun e => ⟨⟨ha, hs⟩, e.symm⟩, fun e => e.2.symm⟩

theorem submit_error {fixed : Params V} {ss : List (Params V)} {e : Exn} (h : submit fixed ss = .error e) : e = .typeError := by
  induction ss with
  | nil => cases h
  | cons s ss ih =>
    simp only [submit] at h
    rcases hk : keywords fixed s with x | k
    · rw [hk] at h
      simp only [Bind.bind, Except.bind, Except.error.injEq] at h
      exact h ▸ (keywords_error.1 hk).2
    · rw [hk] at h
      rcases h' : submit fixed ss with x | ks
      · rw [h'] at h
        simp only [Bind.bind, Except.bind, Except.error.injEq] at h
        exact ih (h ▸ h')
      · rw [h'] at h; cases h

/-- Whatever the order in which jobs complete, each future holds the result of its own job. -/
theorem complete_eq (fn : Params V → Except Exn R) (jobs : List (Params V)) {order : List Nat}
    (h : ∀ i < jobs.length, i ∈ order) : complete fn jobs order = jobs.map (fun p => some (fn p)) := by
  unfold complete
  suffices key : ∀ (order : List Nat) (fs : List (Option (Except Exn R))), fs.length = jobs.length →
      (∀ i p, jobs[i]? = some p → i ∈ order ∨ fs[i]? = some (some (fn p))) →
      order.foldl (fun futures i => match jobs[i]? with
        | some p => futures.set i (some (fn p))
        | none => futures) fs = jobs.map (fun p => some (fn p)) by
    refine key order _ (by simp) fun i p hp => .inl (h i ?_)
    exact (List.getElem?_eq_some_iff.1 hp).1
  intro order
  induction order with
  | nil =>
    intro fs hl hf
    refine List.ext_getElem? fun i => ?_
    rw [List.getElem?_map, List.foldl_nil]
    rcases hp : jobs[i]? with - | p
    · rw [List.getElem?_eq_none_iff] at hp
      rw [List.getElem?_eq_none_iff.2 (by omega)]; rfl
    · rcases hf i p hp with h | h
      · cases h
      · rw [h]; rfl
  | cons k order ih =>
    intro fs hl hf
    rw [List.foldl_cons]
    rcases hk : jobs[k]? with - | q
    · refine ih _ hl fun i p hp => ?_
      rcases hf i p hp with h | h
      · rcases List.mem_cons.1 h with rfl | h
        · rw [hk] at hp; cases hp
        · exact .inl h
      · exact .inr h
    · refine ih _ (by simp [hl]) fun i p hp => ?_
      have hkl := (List.getElem?_eq_some_iff.1 hk).1
      by_cases e : k = i
      · subst e
        rw [hk] at hp; cases hp
        right
        rw [List.getElem?_set_self (by omega)]
      · rcases hf i p hp with h | h
        · rcases List.mem_cons.1 h with rfl | h
          · exact absurd rfl e
          · exact .inl h
        · right; rw [List.getElem?_set_ne e]; exact h

theorem collect_ok {errorFn : R → Except Exn S} {fn : Params V → Except Exn R} {fixed : Params V} {ss : List (Params V)} {es : List S} :
    collect errorFn (ss.map (fun s => some (fn (fixed ++ s)))) = .ok es ↔ List.Forall₂ (ErrorOf fn errorFn fixed) ss es := by
  induction ss generalizing es with
  | nil => simp [collect, eq_comm]
  | cons s ss ih =>
    simp only [List.map_cons, collect]
    rw [List.forall₂_cons_left_iff]
    unfold ErrorOf
    rcases h1 : fn (fixed ++ s) with x | r
    · simp [Bind.bind, Except.bind]
    rcases h2 : errorFn r with x | e
    · simp [Bind.bind, Except.bind, h2]
    rcases h3 : collect errorFn (ss.map (fun s => some (fn (fixed ++ s)))) with x | es'
    · simp only [Bind.bind, Except.bind, h2, reduceCtorEq, false_iff]
      rintro ⟨b, l, -, hl, -⟩
      rw [ih.2 hl] at h3; cases h3
    · simp only [Bind.bind, Except.bind, h2, Except.ok.injEq]
      constructor
      · rintro rfl; exact ⟨e, es', ⟨r, rfl, h2⟩, ih.1 h3, rfl⟩
      · rintro ⟨b, l, ⟨r', hr, hb⟩, hl, rfl⟩
        cases hr; rw [h2] at hb; cases hb
        rw [ih.2 hl] at h3; cases h3; rfl

/-- C119. `multiprocess_simulate` succeeds exactly if there are suggestions, none of them names a fixed parameter, and every
simulation and every error succeeds. It then gives each suggestion its own error, whatever the order of completion. -/
theorem C119_errors (fn : Params V → Except Exn R) (errorFn : R → Except Exn S) (fixed : Params V) (ss : List (Params V))
    {order : List Nat} (ho : order.Perm (List.range ss.length)) (es : List S) :
    multiprocessSimulate fn errorFn order ss fixed = .ok es ↔
      ss ≠ [] ∧ (∀ s ∈ ss, NoClash fixed s) ∧ List.Forall₂ (ErrorOf fn errorFn fixed) ss es := by
  unfold multiprocessSimulate
  by_cases h0 : ss.length = 0
  · rw [if_pos h0]
    simp [List.length_eq_zero_iff.1 h0]
  rw [if_neg h0]
  have h0' : ss ≠ [] := fun e => h0 (by rw [e]; rfl)
  rcases hj : submit fixed ss with e | jobs
  · have hn : ¬ ∀ s ∈ ss, NoClash fixed s := fun hc => by rw [submit_ok.2 ⟨hc, rfl⟩] at hj; cases hj
    simp only [Bind.bind, Except.bind, reduceCtorEq, false_iff]
    exact fun hc => hn hc.2.1
  · obtain ⟨ha, rfl⟩ := submit_ok.1 hj
    simp only [Bind.bind, Except.bind]
    rw [complete_eq fn _ (fun i hi => by
      rw [List.length_map] at hi
      exact ho.mem_iff.2 (List.mem_range.2 hi)), List.map_map]
    change collect errorFn (ss.map (fun s => some (fn (fixed ++ s)))) = _ ↔ _
    rw [collect_ok]
    exact ⟨fun h => ⟨h0', ha, h⟩, fun h => h.2.2⟩

/-- C119: the order of completion has no influence, also on exceptions. -/
theorem C119_order (fn : Params V → Except Exn R) (errorFn : R → Except Exn S) (fixed : Params V) (ss : List (Params V))
    {o1 o2 : List Nat} (h1 : o1.Perm (List.range ss.length)) (h2 : o2.Perm (List.range ss.length)) :
    multiprocessSimulate fn errorFn o1 ss fixed = multiprocessSimulate fn errorFn o2 ss fixed := by
  unfold multiprocessSimulate
  split
  · rfl
  rcases hj : submit fixed ss with e | jobs
  · rfl
  · obtain ⟨-, rfl⟩ := submit_ok.1 hj
    simp only [Bind.bind, Except.bind]
    rw [complete_eq fn _ (fun i hi => h1.mem_iff.2 (List.mem_range.2 (by simpa using hi))),
      complete_eq fn _ (fun i hi => h2.mem_iff.2 (List.mem_range.2 (by simpa using hi)))]

/-- C119, exceptions: no suggestions are a `ValueError`, and a suggestion that names a fixed parameter is a `TypeError`
whatever the function does. -/
theorem C119_refuses (fn : Params V → Except Exn R) (errorFn : R → Except Exn S) (fixed : Params V) (ss : List (Params V))
    (order : List Nat) : (ss = [] → multiprocessSimulate fn errorFn order ss fixed = .error .valueError) ∧
      ((∃ s ∈ ss, ¬ NoClash fixed s) → multiprocessSimulate fn errorFn order ss fixed = .error .typeError) := by
  unfold multiprocessSimulate
  constructor
  · rintro rfl; rfl
  · rintro ⟨s, hs, hn⟩
    rw [if_neg (fun e => by rw [List.length_eq_zero_iff.1 e] at hs; cases hs)]
    rcases hj : submit fixed ss with e | jobs
    · rw [submit_error hj]; rfl
    · exact absurd ((submit_ok.1 hj).1 s hs) hn

/-- C119, exceptions: if the suggestions before one succeed and its simulation or its error raises, that exception is the
one the caller gets. -/
theorem C119_first (fn : Params V → Except Exn R) (errorFn : R → Except Exn S) (fixed : Params V) (before after : List (Params V))
    (s : Params V) {order : List Nat} (ho : order.Perm (List.range (before ++ s :: after).length))
    (ha : ∀ p ∈ before ++ s :: after, NoClash fixed p) (hb : ∀ p ∈ before, ∃ e, ErrorOf fn errorFn fixed p e) (x : Exn)
    (hx : fn (fixed ++ s) = .error x ∨ ∃ r, fn (fixed ++ s) = .ok r ∧ errorFn r = .error x) :
    multiprocessSimulate fn errorFn order (before ++ s :: after) fixed = .error x := by
  unfold multiprocessSimulate
  rw [if_neg (by simp), submit_ok.2 ⟨ha, rfl⟩]
  simp only [Bind.bind, Except.bind]
  rw [complete_eq fn _ (fun i hi => ho.mem_iff.2 (List.mem_range.2 (by simpa using hi))), List.map_map]
  clear ho ha
  induction before with
  | nil =>
    simp only [List.nil_append, List.map_cons, Function.comp_apply, collect]
    rcases hx with h | ⟨r, h, h'⟩
    · simp [Bind.bind, Except.bind, h]
    · simp [Bind.bind, Except.bind, h, h']
  | cons p before ih =>
    obtain ⟨e, r, h, h'⟩ := hb p (by simp)
    simp only [List.cons_append, List.map_cons, Function.comp_apply, collect]
    rw [ih fun q hq => hb q (List.mem_cons_of_mem _ hq)]
    simp [Bind.bind, Except.bind, h, h']

variable [LinearOrder S]

/-- What one iteration does. -/
theorem iteration_ok {H : Optimiser O V S} {fn : Params V → Except Exn R} {errorFn : R → Except Exn S} {order : List Nat}
    {fixed : Params V} {n i : Nat} {l l' : Loop O V S}
    (h : iteration H fn errorFn order fixed n i l = .ok l') :
    ∃ recs o1 es val, H.suggest l.opt n = .ok (recs, o1) ∧ multiprocessSimulate fn errorFn order recs fixed = .ok es ∧
      H.observe o1 recs es = .ok l'.opt ∧ H.ymin l'.opt = .ok val ∧
      ((val < l.bestMse ∧ l'.bestMse = val ∧ ∃ p, H.best l'.opt = .ok p ∧ l'.reports = l.reports ++ [(i, val, p)]) ∨
        (¬ val < l.bestMse ∧ l'.bestMse = l.bestMse ∧ l'.reports = l.reports)) := by
  unfold iteration at h
  rcases h1 : H.suggest l.opt n with x | ⟨recs, o1⟩
  · rw [h1] at h; cases h
  rw [h1] at h
  simp only [Bind.bind, Except.bind] at h
  rcases h2 : multiprocessSimulate fn errorFn order recs fixed with x | es
  · rw [h2] at h; cases h
  rw [h2] at h
  rcases h3 : H.observe o1 recs es with x | o2
  · simp only [h3] at h; cases h
  simp only [h3] at h
  rcases h4 : H.ymin o2 with x | val
  · simp only [h4] at h; cases h
  simp only [h4] at h
  split at h
  · rename_i hv
    rcases h5 : H.best o2 with x | p
    · simp only [h5] at h; cases h
    simp only [h5, Except.ok.injEq] at h
    subst h
    exact ⟨recs, o1, es, val, rfl, h2, h3, h4, .inl ⟨hv, rfl, p, h5, rfl⟩⟩
  · rename_i hv
    simp only [Except.ok.injEq] at h
    subst h
    exact ⟨recs, o1, es, val, rfl, h2, h3, h4, .inr ⟨hv, rfl, rfl⟩⟩

/-- What the iterations do to the optimiser. -/
theorem iterations_led {H : Optimiser O V S} {fn : Params V → Except Exn R} {errorFn : R → Except Exn S} {order : Nat → List Nat}
    {fixed : Params V} {n : Nat} (ho : ∀ i {o recs o1}, H.suggest o n = .ok (recs, o1) → (order i).Perm (List.range recs.length)) :
    ∀ (k i : Nat) (l l' : Loop O V S), iterations H fn errorFn order fixed n i k l = .ok l' →
      ∃ bs, Led H n (ErrorOf fn errorFn fixed) l.opt bs l'.opt ∧ bs.length = k ∧
        ∀ b ∈ bs, b.recs ≠ [] ∧ ∀ p ∈ b.recs, NoClash fixed p := by
  intro k
  induction k with
  | zero => intro i l l' h; cases h; exact ⟨[], .stop _, rfl, by simp⟩
  | succ k ih =>
    intro i l l' h
    unfold iterations at h
    rcases h1 : iteration H fn errorFn (order i) fixed n i l with x | m
    · rw [h1] at h; cases h
    rw [h1] at h
    obtain ⟨bs, hl, hk, hb⟩ := ih _ _ _ h
    obtain ⟨recs, o1, es, val, hs, hm, hob, -, -⟩ := iteration_ok h1
    obtain ⟨a1, a2, a3⟩ := (C119_errors fn errorFn fixed recs (ho i hs) es).1 hm
    exact ⟨⟨recs, es⟩ :: bs, .round hs a3 hob hl, by simp [hk], by simp [a1]; exact ⟨a2, fun b hb' => hb b hb'⟩⟩

/-- C119. The returned optimiser has been led through `n_iters` rounds; in each it was shown all its suggestions, each with
its own error at the suggested and fixed parameters. -/
theorem C119_loop [OrderTop S] {H : Optimiser O V S} {fn : Params V → Except Exn R} {errorFn : R → Except Exn S}
    {order : Nat → List Nat} {fixed : Params V} {nIters n : Nat} {o : O} {l : Loop O V S}
    (ho : ∀ i {o recs o1}, H.suggest o n = .ok (recs, o1) → (order i).Perm (List.range recs.length))
    (h : heboOptimizationLoop H fn errorFn order fixed nIters n o = .ok l) :
    ∃ bs, Led H n (ErrorOf fn errorFn fixed) o bs l.opt ∧ bs.length = nIters ∧
      ∀ b ∈ bs, b.recs ≠ [] ∧ ∀ p ∈ b.recs, NoClash fixed p :=
  iterations_led ho _ _ _ _ h

/-- The reports: what is known after some iterations. -/
structure Reported (ys : List S) [OrderTop S] (l : Loop O V S) : Prop where
  least : ∀ y ∈ ys, l.bestMse ≤ y
  found : l.bestMse = ⊤ ∨ l.bestMse ∈ ys
  last : (l.reports.getLast?.map (·.2.1)).getD ⊤ = l.bestMse
  falling : (l.reports.map (·.2.1)).Pairwise (· > ·)
  above : ∀ r ∈ l.reports, l.bestMse ≤ r.2.1

theorem iteration_reported [OrderTop S] {H : Optimiser O V S} {ys : O → List S} (hH : Keeps H ys) {fn : Params V → Except Exn R}
    {errorFn : R → Except Exn S} {order : List Nat} {fixed : Params V} {n i : Nat} {l l' : Loop O V S}
    (h : iteration H fn errorFn order fixed n i l = .ok l') (hl : Reported (ys l.opt) l) : Reported (ys l'.opt) l' := by
  obtain ⟨recs, o1, es, val, hs, -, hob, hy, hc⟩ := iteration_ok h
  have e : ys l'.opt = ys l.opt ++ es := by rw [hH.observe hob, hH.suggest hs]
  obtain ⟨v1, v2⟩ := hH.ymin hy
  rcases hc with ⟨hv, hm, p, -, hr⟩ | ⟨hv, hm, hr⟩
  · refine ⟨fun y hy' => hm ▸ v2 y hy', .inr (hm ▸ v1), by rw [hr, hm]; simp, ?_, ?_⟩
    · rw [hr, List.map_append, List.pairwise_append]
      refine ⟨hl.falling, by simp, ?_⟩
      intro a ha b hb
      simp only [List.map_cons, List.map_nil, List.mem_singleton] at hb
      obtain ⟨r, hr', rfl⟩ := List.mem_map.1 ha
      subst hb
      exact lt_of_lt_of_le hv (hl.above r hr')
    · intro r hr'
      rw [hr, List.mem_append, List.mem_singleton] at hr'
      rw [hm]
      rcases hr' with h | rfl
      · exact hv.le.trans (hl.above r h)
      · exact le_rfl
  · refine ⟨fun y hy' => ?_, ?_, by rw [hr, hm]; exact hl.last, by rw [hr]; exact hl.falling, by rw [hr, hm]; exact hl.above⟩
    · rw [hm]; exact (not_lt.1 hv).trans (v2 y hy')
    · rw [hm]
      rcases hl.found with h | h
      · exact .inl h
      · right; rw [e]; exact List.mem_append_left _ h

/-- C119. With an optimiser that keeps what it is shown, the reported errors fall, and the last one is the least error of all
rounds. -/
theorem C119_reports [OrderTop S] {H : Optimiser O V S} {ys : O → List S} (hH : Keeps H ys) {fn : Params V → Except Exn R}
    {errorFn : R → Except Exn S} {order : Nat → List Nat} {fixed : Params V} {nIters n : Nat} {o : O} {l : Loop O V S}
    (h0 : ys o = []) (h : heboOptimizationLoop H fn errorFn order fixed nIters n o = .ok l) :
    (l.reports.map (·.2.1)).Pairwise (· > ·) ∧
      (∀ y ∈ ys l.opt, ((l.reports.getLast?.map (·.2.1)).getD ⊤) ≤ y) ∧
      (l.reports ≠ [] → ∃ r ∈ l.reports.getLast?, r.2.1 ∈ ys l.opt) := by
  have key : ∀ (k i : Nat) (l l' : Loop O V S), iterations H fn errorFn order fixed n i k l = .ok l' →
      Reported (ys l.opt) l → Reported (ys l'.opt) l' := by
    intro k
    induction k with
    | zero => intro i l l' h hl; cases h; exact hl
    | succ k ih =>
      intro i l l' h hl
      unfold iterations at h
      rcases h1 : iteration H fn errorFn (order i) fixed n i l with x | m
      · rw [h1] at h; cases h
      rw [h1] at h
      exact ih _ _ _ h (iteration_reported hH h1 hl)
  have hr := key _ _ _ _ h ⟨by simp [h0], .inl rfl, rfl, by simp, by simp⟩
  refine ⟨hr.falling, fun y hy => hr.last ▸ hr.least y hy, fun hne => ?_⟩
  obtain ⟨r, hr'⟩ := Option.ne_none_iff_exists'.1 (fun e => hne (List.getLast?_eq_none_iff.1 e))
  have e := hr.last
  rw [hr'] at e
  refine ⟨r, hr', ?_⟩
  rcases hr.found with h' | h'
  · -- a report of infinity is impossible
    exfalso
    have hfin : ∀ (k i : Nat) (l l' : Loop O V S), iterations H fn errorFn order fixed n i k l = .ok l' →
        (∀ r ∈ l.reports, r.2.1 < ⊤) → ∀ r ∈ l'.reports, r.2.1 < ⊤ := by
      intro k
      induction k with
      | zero => intro i l l' h hl; cases h; exact hl
      | succ k ih =>
        intro i l l' h hl
        unfold iterations at h
        rcases h1 : iteration H fn errorFn (order i) fixed n i l with x | m
        · rw [h1] at h; cases h
        rw [h1] at h
        refine ih _ _ _ h ?_
        obtain ⟨recs, o1, es, val, -, -, -, -, hc⟩ := iteration_ok h1
        rcases hc with ⟨hv, -, p, -, hr⟩ | ⟨-, -, hr⟩
        · intro r hr'
          rw [hr, List.mem_append, List.mem_singleton] at hr'
          rcases hr' with h | rfl
          · exact hl r h
          · exact hv.trans_le le_top
        · rw [hr]; exact hl
    have := hfin _ _ _ _ h (by simp) r (List.mem_of_getLast? hr')
    simp only [Option.map_some, Option.getD_some] at e
    rw [e, h'] at this
    exact lt_irrefl _ this
  · simp only [Option.map_some, Option.getD_some] at e
    rw [e]; exact h'

/-- C119: the loop does return. If an optimiser that reports its best point can be led through rounds without a failure,
the loop leads it there. -/
theorem C119_completes [OrderTop S] {H : Optimiser O V S} {fn : Params V → Except Exn R} {errorFn : R → Except Exn S}
    {order : Nat → List Nat} {fixed : Params V} {n : Nat} {o o' : O} {bs : List (Round V S)}
    (ho : ∀ i {o recs o1}, H.suggest o n = .ok (recs, o1) → (order i).Perm (List.range recs.length))
    (hy : ∀ o, ∃ y, H.ymin o = .ok y) (hp : ∀ o, ∃ p, H.best o = .ok p)
    (hl : Led H n (ErrorOf fn errorFn fixed) o bs o') (hb : ∀ b ∈ bs, b.recs ≠ [] ∧ ∀ p ∈ b.recs, NoClash fixed p) :
    ∃ l, heboOptimizationLoop H fn errorFn order fixed bs.length n o = .ok l ∧ l.opt = o' := by
  unfold heboOptimizationLoop
  suffices key : ∀ (i : Nat) (m : S) (rs : List (Nat × S × Params V)),
      ∃ l, iterations H fn errorFn order fixed n i bs.length ⟨o, m, rs⟩ = .ok l ∧ l.opt = o' from key 1 ⊤ []
  induction hl with
  | stop o => intro i m rs; exact ⟨_, rfl, rfl⟩
  | @round o o1 o2 o3 b bs hs he hob hl ih =>
    intro i m rs
    obtain ⟨a1, a2⟩ := hb b (by simp)
    have hm := (C119_errors fn errorFn fixed b.recs (ho i hs) b.errors).2 ⟨a1, a2, he⟩
    obtain ⟨y, hy'⟩ := hy o2
    obtain ⟨p, hp'⟩ := hp o2
    have e : ∃ m' rs', iteration H fn errorFn (order i) fixed n i ⟨o, m, rs⟩ = .ok ⟨o2, m', rs'⟩ := by
      unfold iteration
      simp only [hs, hm, hob, hy', hp', Bind.bind, Except.bind]
      split <;> exact ⟨_, _, rfl⟩
    obtain ⟨m', rs', e⟩ := e
    simp only [List.length_cons, iterations, e, Bind.bind, Except.bind]
    exact ih (fun b hb' => hb b (List.mem_cons_of_mem _ hb')) _ _ _

/-! ### The front end -/

omit [LinearOrder S] in
theorem fitErrors_ok {sim : Params V → Except Exn R} {mse : R → Except Exn S} {hvals : V} {fixed : Params V} {ps : List (Params V)}
    {es : List S} : fitErrors sim mse hvals fixed ps = .ok es ↔ List.Forall₂ (FitErrorOf sim mse hvals fixed) ps es := by
  induction ps generalizing es with
  | nil => simp [fitErrors, eq_comm]
  | cons p ps ih =>
    simp only [fitErrors]
    rw [List.forall₂_cons_left_iff]
    constructor
    · intro h
      rcases h1 : keywords [("hvals", hvals)] p with x | a
      · rw [h1] at h; cases h
      obtain ⟨a1, rfl⟩ := keywords_ok.1 h1
      simp only [h1, Bind.bind, Except.bind] at h
      rcases h2 : keywords ([("hvals", hvals)] ++ p) fixed with x | k
      · simp only [h2] at h; cases h
      obtain ⟨a2, rfl⟩ := keywords_ok.1 h2
      simp only [h2] at h
      rcases h3 : sim ([("hvals", hvals)] ++ p ++ fixed) with x | r
      · simp only [h3] at h; cases h
      simp only [h3] at h
      rcases h4 : mse r with x | e
      · simp only [h4] at h; cases h
      simp only [h4] at h
      rcases h5 : fitErrors sim mse hvals fixed ps with x | es'
      · simp only [h5] at h; cases h
      simp only [h5, Except.ok.injEq] at h
      subst h
      exact ⟨e, es', ⟨a1, a2, r, h3, h4⟩, ih.1 h5, rfl⟩
    · rintro ⟨b, l, ⟨a1, a2, r, hr, hb⟩, hl, rfl⟩
      simp only [keywords_ok.2 ⟨a1, rfl⟩, keywords_ok.2 ⟨a2, rfl⟩, hr, hb, ih.2 hl, Bind.bind, Except.bind]

theorem fitIterations_led {H : Optimiser O V S} {sim : Params V → Except Exn R} {mse : R → Except Exn S} {hvals : V} {fixed : Params V}
    {n : Nat} : ∀ (k : Nat) (o o' : O), fitIterations H sim mse hvals fixed n k o = .ok o' →
      ∃ bs, Led H n (FitErrorOf sim mse hvals fixed) o bs o' ∧ bs.length = k := by
  intro k
  induction k with
  | zero => intro o o' h; cases h; exact ⟨[], .stop _, rfl⟩
  | succ k ih =>
    intro o o' h
    unfold fitIterations at h
    rcases h1 : fitIteration H sim mse hvals fixed n o with x | m
    · rw [h1] at h; cases h
    rw [h1] at h
    obtain ⟨bs, hl, hk⟩ := ih _ _ h
    unfold fitIteration at h1
    rcases s1 : H.suggest o n with x | ⟨recs, o1⟩
    · rw [s1] at h1; cases h1
    rw [s1] at h1
    simp only [Bind.bind, Except.bind] at h1
    rcases s2 : fitErrors sim mse hvals fixed recs with x | es
    · rw [s2] at h1; cases h1
    rw [s2] at h1
    rcases s3 : H.observe o1 recs es with x | o2
    · simp only [s3] at h1; cases h1
    simp only [s3] at h1
    have e : o2 = m := by
      split at h1
      · cases h1; rfl
      · cases h1; rfl
      · cases h1
    subst e
    exact ⟨⟨recs, es⟩ :: bs, .round s1 (fitErrors_ok.1 s2) s3 hl, by simp [hk]⟩

/-- C120, partial. A fit that returns has led its optimiser through all rounds, each suggestion with its own error, and hands
back the simulation of the best parameters, or nothing if that simulation was refused with a `ValueError`. The full statement
also says that an interrupted fit returns the optimiser with the rounds made so far; see `C120_interrupt_refuted`. -/
theorem C120_fit_partial {H : Optimiser O V S} {sim : Params V → Except Exn R} {mse : R → Except Exn S} {hvals : V}
    {fixed args : Params V} {nIters n : Nat} {o o' : O} {d : Option R}
    (h : heboFit H sim mse hvals fixed args nIters n o = .ok (o', d)) :
    (∃ bs, Led H n (FitErrorOf sim mse hvals (union fixed args)) o bs o' ∧ bs.length = nIters) ∧
      (∀ r, d = some r → ∃ p, H.best o' = .ok p ∧ NoClash [("hvals", hvals)] p ∧
        sim ([("hvals", hvals)] ++ p ++ union fixed args) = .ok r) ∧
      (d = none → H.best o' = .error .valueError ∨ ∃ p, H.best o' = .ok p ∧
        sim ([("hvals", hvals)] ++ p ++ union fixed args) = .error .valueError) := by
  unfold heboFit at h
  dsimp only at h
  rcases h1 : fitIterations H sim mse hvals (union fixed args) n nIters o with x | m
  · rw [h1] at h
    simp only [Bind.bind, Except.bind] at h
    split at h <;> cases h
  rw [h1] at h
  simp only [Bind.bind, Except.bind] at h
  have hb := fitIterations_led _ _ _ h1
  rcases h2 : fitBest H sim hvals (union fixed args) m with x | r
  · rw [h2] at h
    have hx : x = .valueError ∧ o' = m ∧ d = none := by
      cases x <;> simp_all
    obtain ⟨rfl, rfl, rfl⟩ := hx
    refine ⟨hb, by simp, fun _ => ?_⟩
    unfold fitBest at h2
    rcases s1 : H.best o' with y | p
    · rw [s1] at h2
      simp only [Bind.bind, Except.bind, Except.error.injEq] at h2
      exact .inl (congrArg _ h2)
    rw [s1] at h2
    simp only [Bind.bind, Except.bind] at h2
    rcases s2 : keywords [("hvals", hvals)] p with y | a
    · rw [s2] at h2; cases h2; cases (keywords_error.1 s2).2
    obtain ⟨a1, rfl⟩ := keywords_ok.1 s2
    rw [s2] at h2
    dsimp only at h2
    rcases s3 : keywords ([("hvals", hvals)] ++ p) (union fixed args) with y | k
    · rw [s3] at h2; cases h2; cases (keywords_error.1 s3).2
    obtain ⟨a2, rfl⟩ := keywords_ok.1 s3
    rw [s3] at h2
    exact .inr ⟨p, rfl, h2⟩
  · rw [h2] at h
    simp only [Except.ok.injEq, Prod.mk.injEq] at h
    obtain ⟨rfl, rfl⟩ := h
    refine ⟨hb, ?_, by simp⟩
    rintro r' e
    cases e
    unfold fitBest at h2
    rcases s1 : H.best m with y | p
    · rw [s1] at h2; cases h2
    rw [s1] at h2
    simp only [Bind.bind, Except.bind] at h2
    rcases s2 : keywords [("hvals", hvals)] p with y | a
    · rw [s2] at h2; cases h2
    obtain ⟨a1, rfl⟩ := keywords_ok.1 s2
    rw [s2] at h2
    dsimp only at h2
    rcases s3 : keywords ([("hvals", hvals)] ++ p) (union fixed args) with y | k
    · rw [s3] at h2; cases h2
    obtain ⟨a2, rfl⟩ := keywords_ok.1 s3
    rw [s3] at h2
    exact ⟨p, rfl, a1, h2⟩

/-- C120: an optimiser that can be led through the rounds is led through them; a `ValueError` of the progress text is no
obstacle. What comes back is the simulation at the best parameters, nothing if its arguments were refused with a `ValueError`,
and any other exception reaches the caller. -/
theorem C120_completes {H : Optimiser O V S} {sim : Params V → Except Exn R} {mse : R → Except Exn S} {hvals : V}
    {fixed args : Params V} {n : Nat} {o o' : O} {bs : List (Round V S)}
    (hy : ∀ o, (∃ y, H.ymin o = .ok y) ∨ H.ymin o = .error .valueError)
    (hl : Led H n (FitErrorOf sim mse hvals (union fixed args)) o bs o') {p : Params V} (hp : H.best o' = .ok p)
    (h1 : NoClash [("hvals", hvals)] p) (h2 : NoClash ([("hvals", hvals)] ++ p) (union fixed args)) :
    (∀ r, sim ([("hvals", hvals)] ++ p ++ union fixed args) = .ok r →
        heboFit H sim mse hvals fixed args bs.length n o = .ok (o', some r)) ∧
      (sim ([("hvals", hvals)] ++ p ++ union fixed args) = .error .valueError →
        heboFit H sim mse hvals fixed args bs.length n o = .ok (o', none)) ∧
      ∀ x, x ≠ .valueError → x ≠ .interrupt → sim ([("hvals", hvals)] ++ p ++ union fixed args) = .error x →
        heboFit H sim mse hvals fixed args bs.length n o = .error x := by
  have key : fitIterations H sim mse hvals (union fixed args) n bs.length o = .ok o' := by
    clear hp
    induction hl with
    | stop o => rfl
    | @round o o1 o2 o3 b bs hs he hob hl ih =>
      have e : fitIteration H sim mse hvals (union fixed args) n o = .ok o2 := by
        unfold fitIteration
        simp only [hs, fitErrors_ok.2 he, hob, Bind.bind, Except.bind]
        rcases hy o2 with ⟨y, e⟩ | e <;> rw [e]
      simp only [List.length_cons, fitIterations, e, Bind.bind, Except.bind]
      exact ih
  have hb : fitBest H sim hvals (union fixed args) o' = sim ([("hvals", hvals)] ++ p ++ union fixed args) := by
    unfold fitBest
    simp only [hp, keywords_ok.2 ⟨h1, rfl⟩, keywords_ok.2 ⟨h2, rfl⟩, Bind.bind, Except.bind]
  unfold heboFit
  dsimp only
  rw [key]
  simp only [Bind.bind, Except.bind]
  rw [hb]
  refine ⟨fun r hr => by rw [hr], fun hr => by rw [hr], fun x hx hx' hr => ?_⟩
  rw [hr]
  cases x <;> first | rfl | exact absurd rfl hx | exact absurd rfl hx'

omit [LinearOrder S] in
/-- C120: of the values set in the interface and the fixed ones, the former hold. -/
theorem C120_values (fixed args : Params V) (k : String) :
    (union fixed args).lookup k = (args.lookup k).or (fixed.lookup k) := by
  have hl : ∀ (a b : Params V), (a ++ b).lookup k = (a.lookup k).or (b.lookup k) := by
    intro a b
    induction a with
    | nil => simp
    | cons q a ih =>
      obtain ⟨x, v⟩ := q
      simp only [List.cons_append, List.lookup_cons]
      cases k == x <;> simp [ih]
  unfold union
  rw [hl]
  by_cases ha : args.any (fun q => q.1 == k) = true
  · have h1 : (fixed.filter fun p => !args.any fun q => q.1 == p.1).lookup k = none := by
      induction fixed with
      | nil => rfl
      | cons q fixed ih =>
        obtain ⟨x, v⟩ := q
        rw [List.filter_cons]
        split
        · rename_i hq
          rw [List.lookup_cons]
          have : (k == x) = false := by
            rw [beq_eq_false_iff_ne]
            rintro rfl
            simp only [ha] at hq
            cases hq
          rw [this]
          exact ih
        · exact ih
    have h2 : ∃ v, args.lookup k = some v := by
      clear h1
      induction args with
      | nil => cases ha
      | cons q args ih =>
        obtain ⟨x, v⟩ := q
        rw [List.lookup_cons]
        by_cases hk : k = x
        · exact ⟨v, by simp [hk]⟩
        · have : (k == x) = false := by simpa using hk
          rw [this]
          refine ih ?_
          rw [List.any_cons, Bool.or_eq_true] at ha
          rcases ha with ha | ha
          · exact absurd (eq_of_beq ha).symm hk
          · exact ha
    obtain ⟨v, h2⟩ := h2
    rw [h1, h2]
    rfl
  · have h1 : (fixed.filter fun p => !args.any fun q => q.1 == p.1).lookup k = fixed.lookup k := by
      induction fixed with
      | nil => rfl
      | cons q fixed ih =>
        obtain ⟨x, v⟩ := q
        rw [List.filter_cons]
        split
        · rw [List.lookup_cons, List.lookup_cons, ih]
        · rename_i hq
          rw [List.lookup_cons]
          have : (k == x) = false := by
            rw [beq_eq_false_iff_ne]
            rintro rfl
            simp [ha] at hq
          rw [this]
          exact ih
    have h2 : args.lookup k = none := by
      clear h1
      induction args with
      | nil => rfl
      | cons q args ih =>
        obtain ⟨x, v⟩ := q
        rw [List.any_cons, Bool.or_eq_true, not_or] at ha
        rw [List.lookup_cons]
        have : (k == x) = false := by
          rw [beq_eq_false_iff_ne]
          rintro rfl
          simp at ha
        rw [this]
        exact ih ha.2
    rw [h1, h2]
    simp

/-- C120: an interrupt in any round loses the fit; the caller gets an `UnboundLocalError`. -/
theorem C120_interrupt {H : Optimiser O V S} {sim : Params V → Except Exn R} {mse : R → Except Exn S} {hvals : V}
    {fixed args : Params V} {nIters n : Nat} {o : O}
    (h : fitIterations H sim mse hvals (union fixed args) n nIters o = .error .interrupt) :
    heboFit H sim mse hvals fixed args nIters n o = .error .unboundLocal := by
  unfold heboFit
  dsimp only
  rw [h]
  rfl

/-- An optimiser that suggests a point by the number of observations and keeps the errors. -/
def keeper : Optimiser (List (Fin 100)) Nat (Fin 100) where
  suggest o n := .ok (List.replicate n [("K0", o.length)], o)
  observe o _ es := .ok (o ++ es)
  ymin o := match o.min? with
    | some y => .ok y
    | none => .error .valueError
  best _ := .ok [("K0", 0)]

/-- C120: not every fit returns what was observed. The first round of this one succeeds, the second is interrupted, and
the optimiser with its observation is lost. -/
theorem C120_interrupt_refuted : ∃ (sim : Params Nat → Except Exn (Fin 100)) (o1 : List (Fin 100)),
    fitIteration keeper sim .ok 7 [("N", 1)] 1 [] = .ok o1 ∧ o1 ≠ [] ∧
      heboFit keeper sim .ok 7 [] [("N", 1)] 3 1 [] = .error .unboundLocal := by
  refine ⟨fun k => if k.lookup "K0" = some 1 then .error .interrupt else .ok 5, [5], rfl, by simp, ?_⟩
  exact C120_interrupt rfl

/-- A value set in the interface replaces the fixed one, and a simulation that refuses its best parameters leaves no data. -/
example : (union [("alpha", 2), ("N", 5)] [("N", 1)] : Params Nat) = [("alpha", 2), ("N", 1)] := rfl

example : heboFit keeper (fun k => if k.lookup "K0" = some 0 ∧ k.lookup "N" = some 1 then .ok 5 else .error .valueError) .ok 7
    [("alpha", 2), ("N", 5)] [("N", 1)] 1 1 [] = .ok ([5], some 5) := rfl

/-- Fits of three rounds that return. -/
example : heboFit keeper (fun k => .ok (Fin.ofNat 100 k.length)) .ok 7 [("alpha", 2)] [("N", 1)] 3 2 [] =
    .ok ([4, 4, 4, 4, 4, 4], some 4) := rfl

example : (heboOptimizationLoop keeper (fun k => .ok (Fin.ofNat 100 (9 - k.foldl (fun s (p : String × Nat) => s + p.2) 0))) .ok
    (fun _ => [1, 0]) [("N", 1)] 3 2 []).map (fun l => (l.opt, l.reports)) =
    .ok ([8, 8, 6, 6, 4, 4], [(1, 8, [("K0", 0)]), (2, 6, [("K0", 0)]), (3, 4, [("K0", 0)])]) := rfl

/-- `keeper` keeps what it is shown, and every order of two jobs is allowed. -/
example : Keeps keeper id ∧ ∀ (_ : Nat) {o recs o1}, keeper.suggest o 2 = .ok (recs, o1) → [1, 0].Perm (List.range recs.length) := by
  refine ⟨⟨?_, ?_, ?_⟩, ?_⟩
  · intro o n recs o1 h; cases h; rfl
  · intro o recs es o1 h; cases h; rfl
  · intro o y h
    simp only [keeper] at h
    split at h
    · rename_i z hz
      cases h
      exact List.min?_eq_some_iff.1 hz
    · cases h
  · intro i o recs o1 h
    cases h
    simp only [List.length_replicate]
    decide

end PyHebo
