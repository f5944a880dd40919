import Verif.Props.ViewJunction

set_option linter.unusedSectionVars false

/-!
# C101: the parameters of a fit
-/

namespace View
open Spec

/-- The parameters a fit with `N` layers has: magnetisation and anisotropy of every layer and the coupling of every neighbouring pair. -/
def IsParam (N : ℕ) (p : String) (i : ℕ) : Prop := ((p = "Ms" ∨ p = "K") ∧ i < N) ∨ (p = "J" ∧ i + 1 < N)

theorem mem_fitParams (N : ℕ) (p : String) (i : ℕ) : (p, i) ∈ fitParams N ↔ IsParam N p i := by
  simp only [fitParams, List.mem_flatMap, List.mem_range, List.mem_map, List.mem_filter, List.mem_cons, List.not_mem_nil, or_false,
    decide_eq_true_eq, IsParam, Prod.mk.injEq]
  constructor
  · rintro ⟨k, hk, q, ⟨hq, hn⟩, rfl, rfl⟩
    rcases hq with rfl | rfl | rfl
    · exact Or.inl ⟨Or.inl rfl, hk⟩
    · exact Or.inl ⟨Or.inr rfl, hk⟩
    · exact Or.inr ⟨rfl, by simpa using hn⟩
  · rintro (⟨hp, hi⟩ | ⟨hp, hi⟩)
    · rcases hp with rfl | rfl
      · exact ⟨i, hi, "Ms", ⟨by simp, by simp⟩, rfl, rfl⟩
      · exact ⟨i, hi, "K", ⟨by simp, by simp⟩, rfl, rfl⟩
    · subst hp
      exact ⟨i, by omega, "J", ⟨by simp, by simpa using hi⟩, rfl, rfl⟩

theorem fitParams_nodup (N : ℕ) : (fitParams N).Nodup := by
  unfold fitParams
  rw [List.nodup_flatMap]
  constructor
  · intro i _
    refine List.Nodup.map (fun a b h => (Prod.mk.inj h).1) (List.Nodup.filter _ (by simp))
  · refine List.Pairwise.imp ?_ List.nodup_range
    intro a b hab
    simp only [Function.onFun, List.disjoint_left, List.mem_map]
    rintro x ⟨p, -, rfl⟩ ⟨q, -, hq⟩
    exact hab (Prod.mk.inj hq).2.symm

/-- Parameter names are distinct. -/
theorem name_inj {N : ℕ} {a b : String × ℕ} (ha : a ∈ fitParams N) (hb : b ∈ fitParams N) (h : key a.1 a.2 = key b.1 b.2) : a = b := by
  obtain ⟨p, i⟩ := a
  obtain ⟨q, k⟩ := b
  rw [mem_fitParams] at ha hb
  have hp : p = "Ms" ∨ p = "K" ∨ p = "J" := by
    rcases ha with ⟨h1 | h1, -⟩ | ⟨h1, -⟩ <;> simp [h1]
  have hq : q = "Ms" ∨ q = "K" ∨ q = "J" := by
    rcases hb with ⟨h1 | h1, -⟩ | ⟨h1, -⟩ <;> simp [h1]
  have e : p = q := by
    have h1 := congrArg (fun s : String => s.toList.head?) h
    rcases hp with rfl | rfl | rfl <;> rcases hq with rfl | rfl | rfl <;> simp [key, String.toList_append] at h1 ⊢
  subst e
  exact congrArg _ (key_inj h)

theorem collect_map {α β : Type} {f : α → Except Err β} {l : List α} {g : α → β} (h : ∀ a ∈ l, f a = .ok (g a)) : Proc.collect f l = .ok (l.map g) := by
  induction l with
  | nil => rfl
  | cons a l ih => simp only [Proc.collect, h a (by simp), ih fun x hx => h x (by simp [hx]), List.map_cons]

theorem collect_head {α β : Type} {f : α → Except Err β} {a : α} {l : List α} {e : Err} (h : f a = .error e) : Proc.collect f (a :: l) = .error e := by
  simp only [Proc.collect, h]

theorem collect_range_head {β : Type} {f : ℕ → Except Err β} {n : ℕ} (hn : 0 < n) {e : Err} (h : f 0 = .error e) :
    Proc.collect f (List.range n) = .error e := by
  obtain ⟨m, rfl⟩ : ∃ m, n = m + 1 := ⟨n - 1, by omega⟩
  rw [List.range_succ_eq_map]
  exact collect_head h

/-! ### Configuration -/

/-- The values of the bounds of parameter `p` of layer `i`. -/
structure Bounds (float : String → Except Err ℝ) (s : Session ℝ) (lo up : String × ℕ → ℝ) (fx : String × ℕ → Bool) : Prop where
  low : ∀ p ∈ fitParams s.N, ∃ t, s.text (key ("low_" ++ p.1) p.2) = some t ∧ float t = .ok (lo p)
  high : ∀ p ∈ fitParams s.N, ∃ t, s.text (key ("up_" ++ p.1) p.2) = some t ∧ float t = .ok (up p)
  fix : ∀ p ∈ fitParams s.N, s.flag (key ("check_" ++ p.1) p.2) = some (fx p)

theorem configStep_eq {float : String → Except Err ℝ} {s : Session ℝ} {lo up : String × ℕ → ℝ} {fx : String × ℕ → Bool} (h : Bounds float s lo up fx)
    {p : String × ℕ} (hp : p ∈ fitParams s.N) :
    configStep float s p = .ok (if fx p = true ∨ up p = lo p then .inr (key p.1 p.2, lo p) else .inl ⟨key p.1 p.2, lo p, up p⟩) := by
  obtain ⟨tl, h1, h2⟩ := h.low p hp
  obtain ⟨tu, h3, h4⟩ := h.high p hp
  unfold configStep
  rw [get_some (h.fix p hp), get_some h1, get_some h3]
  simp only [bind, Except.bind]
  rcases hf : fx p with _ | _
  · rw [if_neg (by simp), h4]
    simp only
    rw [h2]
    simp only [Scalar.eqb_real]
    by_cases he : up p = lo p
    · simp [he]
    · simp [he]
  · simp [h2]

theorem getConfig_eq {float : String → Except Err ℝ} {s : Session ℝ} {lo up : String × ℕ → ℝ} {fx : String × ℕ → Bool} (h : Bounds float s lo up fx) :
    getConfig float s = .ok
      (((fitParams s.N).filter fun p => ¬ (fx p = true ∨ up p = lo p)).map fun p => ⟨key p.1 p.2, lo p, up p⟩,
        ((fitParams s.N).filter fun p => fx p = true ∨ up p = lo p).map fun p => (key p.1 p.2, lo p)) := by
  unfold getConfig
  rw [collect_map fun p hp => configStep_eq h hp]
  simp only [bind, Except.bind, List.filterMap_map, Except.ok.injEq, Prod.mk.injEq]
  generalize fitParams s.N = l
  constructor
  · induction l with
    | nil => rfl
    | cons p l ih =>
      rw [List.filterMap_cons, List.filter_cons]
      by_cases hp : fx p = true ∨ up p = lo p
      · simp only [Function.comp, Sum.getLeft?, hp, not_true_eq_false, decide_false, Bool.false_eq_true, if_false]
        exact ih
      · simp only [Function.comp, Sum.getLeft?, hp, not_false_eq_true, decide_true, if_true, List.map_cons]
        exact congrArg _ ih
  · induction l with
    | nil => rfl
    | cons p l ih =>
      rw [List.filterMap_cons, List.filter_cons]
      by_cases hp : fx p = true ∨ up p = lo p
      · simp only [Function.comp, Sum.getRight?, hp, decide_true, if_true, List.map_cons]
        exact congrArg _ ih
      · simp only [Function.comp, Sum.getRight?, hp, decide_false, Bool.false_eq_true, if_false]
        exact ih

/-- **C101.** Every parameter of the fit is either searched for or fixed, exactly once. Searched for are those that are not checked and have
two different bounds, between the bounds as entered; the others are fixed to the lower bound. -/
theorem C101_config {float : String → Except Err ℝ} {s : Session ℝ} {lo up : String × ℕ → ℝ} {fx : String × ℕ → Bool} (h : Bounds float s lo up fx) :
    ∃ cfg fixed, getConfig float s = .ok (cfg, fixed) ∧
      (cfg.map (·.name) ++ fixed.map (·.1)).Nodup ∧
      (∀ n, n ∈ cfg.map (·.name) ++ fixed.map (·.1) ↔ ∃ p i, IsParam s.N p i ∧ n = p ++ toString i) ∧
      ∀ p i, IsParam s.N p i →
        (fx (p, i) = false → up (p, i) ≠ lo (p, i) → (⟨p ++ toString i, lo (p, i), up (p, i)⟩ : Dim ℝ) ∈ cfg) ∧
        (fx (p, i) = true ∨ up (p, i) = lo (p, i) → (p ++ toString i, lo (p, i)) ∈ fixed) := by
  refine ⟨_, _, getConfig_eq h, ?_, fun n => ?_, fun p i hp => ⟨fun h1 h2 => ?_, fun h1 => ?_⟩⟩
  · rw [List.map_map, List.map_map]
    have hinj : ∀ (l : List (String × ℕ)), l.Nodup → (∀ a ∈ l, a ∈ fitParams s.N) → (l.map fun p => key p.1 p.2).Nodup := fun l hl hs =>
      List.Nodup.map_on (fun a ha b hb e => name_inj (hs a ha) (hs b hb) e) hl
    refine List.Nodup.append (hinj _ ((fitParams_nodup s.N).filter _) fun a ha => (List.mem_filter.1 ha).1)
      (hinj _ ((fitParams_nodup s.N).filter _) fun a ha => (List.mem_filter.1 ha).1) ?_
    rw [List.disjoint_left]
    intro n h1 h2
    obtain ⟨a, ha, rfl⟩ := List.mem_map.1 h1
    obtain ⟨b, hb, e⟩ := List.mem_map.1 h2
    rw [List.mem_filter] at ha hb
    have := name_inj hb.1 ha.1 e
    subst this
    simp only [decide_eq_true_eq] at ha hb
    exact ha.2 hb.2
  · simp only [List.map_map, List.mem_append, List.mem_map, List.mem_filter, Function.comp, decide_eq_true_eq]
    constructor
    · rintro (⟨⟨p, i⟩, ⟨h1, -⟩, rfl⟩ | ⟨⟨p, i⟩, ⟨h1, -⟩, rfl⟩)
      · exact ⟨p, i, (mem_fitParams _ _ _).1 h1, rfl⟩
      · exact ⟨p, i, (mem_fitParams _ _ _).1 h1, rfl⟩
    · rintro ⟨p, i, h1, rfl⟩
      by_cases h2 : fx (p, i) = true ∨ up (p, i) = lo (p, i)
      · exact Or.inr ⟨(p, i), ⟨(mem_fitParams _ _ _).2 h1, h2⟩, rfl⟩
      · exact Or.inl ⟨(p, i), ⟨(mem_fitParams _ _ _).2 h1, h2⟩, rfl⟩
  · refine List.mem_map.2 ⟨(p, i), List.mem_filter.2 ⟨(mem_fitParams _ _ _).2 hp, ?_⟩, rfl⟩
    simp [h1, h2]
  · refine List.mem_map.2 ⟨(p, i), List.mem_filter.2 ⟨(mem_fitParams _ _ _).2 hp, ?_⟩, rfl⟩
    simpa using h1

/-- **C101, refuted.** Bounds entered in the wrong order are reported as swapped, but the search space keeps them in the wrong order. -/
theorem C101_swap_refuted {float : String → Except Err ℝ} {s : Session ℝ} {lo up : String × ℕ → ℝ} {fx : String × ℕ → Bool}
    (h : Bounds float s lo up fx) {p : String} {i : ℕ} (hp : IsParam s.N p i) (hf : fx (p, i) = false) (hb : up (p, i) < lo (p, i)) :
    ∃ cfg fixed d, getConfig float s = .ok (cfg, fixed) ∧ d ∈ cfg ∧ d.name = p ++ toString i ∧ d.ub < d.lb := by
  obtain ⟨cfg, fixed, e, -, -, hg⟩ := C101_config h
  exact ⟨cfg, fixed, _, e, (hg p i hp).1 hf hb.ne, rfl, hb⟩

/-! ### Using the parameters -/

theorem lookup_of_mem {kw : Params ℝ} (hk : (kw.map (·.1)).Nodup) {k : String} {x : ℝ} (h : (k, x) ∈ kw) : kw.lookup k = some x := by
  induction kw with
  | nil => simp at h
  | cons a kw ih =>
    obtain ⟨n, y⟩ := a
    rw [List.map_cons, List.nodup_cons] at hk
    rw [List.lookup_cons]
    rcases List.mem_cons.1 h with h | h
    · obtain ⟨rfl, rfl⟩ := Prod.mk.inj h
      simp
    · have : k ≠ n := fun e => hk.1 (List.mem_map.2 ⟨(k, x), h, e⟩)
      simp only [beq_eq_false_iff_ne.2 this]
      exact ih hk.2 h

/-- **C101.** A suggestion for the searched parameters together with the fixed ones gives every parameter of the simulation: the couplings,
anisotropies and magnetisations read from the keyword arguments are the suggested value where the parameter was searched for and the
lower bound where it was fixed, in the order of the layers. -/
theorem C101_arguments {float : String → Except Err ℝ} {s : Session ℝ} {lo up : String × ℕ → ℝ} {fx : String × ℕ → Bool} (h : Bounds float s lo up fx)
    (w : String → ℝ) :
    ∃ cfg fixed, getConfig float s = .ok (cfg, fixed) ∧
      let value := fun p i => if fx (p, i) = true ∨ up (p, i) = lo (p, i) then lo (p, i) else w (p ++ toString i)
      kwargsToList ((cfg.map fun d => (d.name, w d.name)) ++ fixed) s.N =
        .ok ((List.range (s.N - 1)).map (value "J"), (List.range s.N).map (value "K"), (List.range s.N).map (value "Ms")) := by
  obtain ⟨cfg, fixed, e, hnd, -, hg⟩ := C101_config h
  refine ⟨cfg, fixed, e, ?_⟩
  intro value
  have hp : ∀ p i, IsParam s.N p i → param ((cfg.map fun d => (d.name, w d.name)) ++ fixed) (key p i) = .ok (value p i) := by
    intro p i hpi
    have hnd' : (((cfg.map fun d => (d.name, w d.name)) ++ fixed).map (·.1)).Nodup := by
      rw [List.map_append, List.map_map]
      exact hnd
    have hm : (key p i, value p i) ∈ (cfg.map fun d => (d.name, w d.name)) ++ fixed := by
      rw [List.mem_append]
      by_cases h1 : fx (p, i) = true ∨ up (p, i) = lo (p, i)
      · right
        have := (hg p i hpi).2 h1
        simp only [value, if_pos h1]
        exact this
      · left
        have h2 := (hg p i hpi).1 (by simpa using fun q => h1 (Or.inl q)) fun q => h1 (Or.inr q)
        refine List.mem_map.2 ⟨_, h2, ?_⟩
        simp only [value, if_neg h1]
        rfl
    rw [param, lookup_of_mem hnd' hm]
  unfold kwargsToList
  rw [collect_map (g := value "J") fun i hi => hp "J" i (Or.inr ⟨rfl, by have := List.mem_range.1 hi; omega⟩),
    collect_map (g := value "K") fun i hi => hp "K" i (Or.inl ⟨Or.inr rfl, List.mem_range.1 hi⟩),
    collect_map (g := value "Ms") fun i hi => hp "Ms" i (Or.inl ⟨Or.inl rfl, List.mem_range.1 hi⟩)]
  rfl

/-! ### The missing widget -/

/-- No text or selection of the page has the key of the easy axis of a layer. -/
theorem axis_missing (N i : ℕ) : key "anisotropy_axis" i ∉ spectrumTexts N := by
  intro h
  simp only [spectrumTexts, List.mem_append, List.mem_cons, List.not_mem_nil, or_false, List.mem_flatMap] at h
  have hc : ∀ k : String, key "anisotropy_axis" i = k → k.toList.head? = some 'a' := by
    rintro k rfl
    simp [key, String.toList_append]
  rcases h with (h | h | h | h) | ⟨p, -, h | h⟩
  · simpa using hc _ h
  · simpa using hc _ h
  · simpa using hc _ h
  · simpa using hc _ h
  · have := hc _ h
    simp [key, String.toList_append] at this
  · have := hc _ h
    simp [key, String.toList_append] at this

/-- **C101.** On a page that also has the easy axes and the field axis, a fit starts with the search space and the fixed parameters of the
widgets, the thickness and easy axis of every layer in order, and the axis of the field. -/
theorem C101_setup {float : String → Except Err ℝ} {s : Session ℝ} {lo up : String × ℕ → ℝ} {fx : String × ℕ → Bool} (h : Bounds float s lo up fx)
    {d : ℕ → ℝ} {ax : ℕ → String} {H : String} (hd : ∀ i < s.N, s.num ("thickness" ++ toString i) = some (d i))
    (ha : ∀ i < s.N, s.text ("anisotropy_axis" ++ toString i) = some (ax i)) (hH : s.text "H_axis" = some H) :
    ∃ cfg fixed ds axs, fitSetup float s = .ok (cfg, fixed, ds, axs, H) ∧
      (∀ p i, IsParam s.N p i →
        (fx (p, i) = false → up (p, i) ≠ lo (p, i) → (⟨p ++ toString i, lo (p, i), up (p, i)⟩ : Dim ℝ) ∈ cfg) ∧
        (fx (p, i) = true ∨ up (p, i) = lo (p, i) → (p ++ toString i, lo (p, i)) ∈ fixed)) ∧
      ds.length = s.N ∧ axs.length = s.N ∧ ∀ i < s.N, ds[i]? = some (d i) ∧ axs[i]? = some (ax i) := by
  obtain ⟨cfg, fixed, e, -, -, hp⟩ := C101_config h
  have h1 : Proc.collect (fun i => get s.num (key "thickness" i)) (List.range s.N) = .ok ((List.range s.N).map d) :=
    collect_map fun i hi => get_some (hd i (List.mem_range.1 hi))
  have h2 : Proc.collect (fun i => get s.text (key "anisotropy_axis" i)) (List.range s.N) = .ok ((List.range s.N).map ax) :=
    collect_map fun i hi => get_some (ha i (List.mem_range.1 hi))
  refine ⟨cfg, fixed, (List.range s.N).map d, (List.range s.N).map ax, ?_, hp, by simp, by simp, fun i hi => by simp [hi]⟩
  unfold fitSetup fixedArguments
  rw [e, h1, h2, get_some hH]
  rfl

/-- A page with every key: all bounds differ or are fixed as the check box says. -/
example : ∃ (s : Session ℝ) (float : String → Except Err ℝ) (lo up : String × ℕ → ℝ) (fx : String × ℕ → Bool), s.N = 2 ∧ Bounds float s lo up fx ∧
    (∀ i < s.N, s.num ("thickness" ++ toString i) = some 1) ∧ (∀ i < s.N, s.text ("anisotropy_axis" ++ toString i) = some "z") ∧
    s.text "H_axis" = some "z" :=
  ⟨⟨2, fun _ => some 1, fun _ => some 1, fun _ => some "z", fun _ => some true⟩, fun _ => .ok 3, fun _ => 3, fun _ => 3, fun _ => true, rfl,
    ⟨fun _ _ => ⟨_, rfl, rfl⟩, fun _ _ => ⟨_, rfl, rfl⟩, fun _ _ => rfl⟩, fun _ _ => rfl, fun _ _ => rfl, rfl⟩

/-- **C101, refuted.** The page has no widget for the easy axes the fit reads, so on a page that has only its own keys a fit never starts: it raises
`KeyError`, and so does the Smit-Beljers sweep of the page. -/
theorem C101_fit_refuted {float : String → Except Err ℝ} {s : Session ℝ} {v : String → ℝ} {c : String → ℕ} {t : String → String} {f : String → Bool}
    (h : Filled s v c t f) (only : ∀ k, k ∉ spectrumTexts s.N → s.text k = none) {lo up : String × ℕ → ℝ} {fx : String × ℕ → Bool}
    (hb : Bounds float s lo up fx) : fitSetup float s = .error .keyError ∧ ∀ solve hvals, simulateSb solve s hvals = .error .keyError := by
  have hx : get s.text (key "anisotropy_axis" 0) = .error .keyError := get_none (only _ (axis_missing s.N 0))
  constructor
  · obtain ⟨cfg, fixed, e, -⟩ := C101_config hb
    have h1 : Proc.collect (fun i => get s.num (key "thickness" i)) (List.range s.N) = .ok ((List.range s.N).map fun i => v (key "thickness" i)) :=
      collect_map fun i hi => get_some (h.num _ (mem_numbers (List.mem_range.1 hi) (by simp [layerNumbers])))
    unfold fitSetup fixedArguments
    rw [e, h1, collect_range_head h.layers hx]
    rfl
  · intro solve hvals
    unfold simulateSb
    rw [collect_range_head h.layers (e := .keyError)]
    · rfl
    · simp only [hx]
      rfl

/-- Such pages exist. -/
example : ∃ (s : Session ℝ) (v : String → ℝ) (c : String → ℕ) (t : String → String) (f : String → Bool) (float : String → Except Err ℝ)
    (lo up : String × ℕ → ℝ) (fx : String × ℕ → Bool), s.N = 2 ∧ Filled s v c t f ∧ (∀ k, k ∉ spectrumTexts s.N → s.text k = none) ∧
      Bounds float s lo up fx := by
  refine ⟨opened 2, _, _, _, _, fun _ => .ok 1, fun _ => 1, fun _ => 1, fun _ => false, rfl, opened_filled 2 (by norm_num), fun k hk => if_neg hk, ?_⟩
  have hm : ∀ (pre : String) (p : String × ℕ), p ∈ fitParams 2 → pre = "low_" ∨ pre = "up_" → key (pre ++ p.1) p.2 ∈ spectrumTexts 2 := by
    intro pre p hp h
    refine List.mem_append_right _ (List.mem_flatMap.2 ⟨p, hp, ?_⟩)
    rcases h with rfl | rfl <;> simp
  exact ⟨fun p hp => ⟨_, if_pos (hm "low_" p hp (Or.inl rfl)), rfl⟩, fun p hp => ⟨_, if_pos (hm "up_" p hp (Or.inr rfl)), rfl⟩,
    fun p hp => if_pos (List.mem_map.2 ⟨p, hp, rfl⟩)⟩

end View
