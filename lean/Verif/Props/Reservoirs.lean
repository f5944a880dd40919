import Verif.Props.Dipoles
import Verif.Props.Logs
import Verif.Props.Uncoupled

/-! # C42: dipole fields in a reservoir -/

set_option linter.unusedSectionVars false

namespace Layer
variable {T : Type} [Scalar T]
/-- helper -/
theorem rk4D_same (l : Layer T) (t dt : T) (b a d : CVec T) : Same l (l.rk4StepDipoleInjection t dt b a d).st := by
  by_cases h : l.Guard
  · obtain ⟨c, hc⟩ := l.rk4D_ok t dt b a d h
    rw [hc]
    exact (same_setCache l c).trans (same_setMag _ _)
  · obtain ⟨c, hc⟩ := l.rk4D_err t dt b a d h; rw [hc]; exact same_setCache l c
end Layer

namespace Junction
/-- helper -/
theorem mapM_length {α β : Type} {f : α → Option β} {as : List α} {bs : List β} (h : as.mapM f = some bs) : bs.length = as.length := by
  induction as generalizing bs with
  | nil => cases h; rfl
  | cons a as ih =>
    rw [List.mapM_cons] at h
    cases ha : f a with
    | none => rw [ha] at h; cases h
    | some b =>
      rw [ha] at h
      cases hm : as.mapM f with
      | none => rw [hm] at h; cases h
      | some bs' => rw [hm] at h; cases h; simp [ih hm]
/-- helper -/
theorem mapM_get {α β : Type} {f : α → Option β} {as : List α} {bs : List β} (h : as.mapM f = some bs) {i : Nat} {a : α}
    (ha : as[i]? = some a) : ∃ b, f a = some b ∧ bs[i]? = some b := by
  induction as generalizing bs i with
  | nil => cases ha
  | cons x as ih =>
    rw [List.mapM_cons] at h
    cases hx : f x with
    | none => rw [hx] at h; cases h
    | some b =>
      rw [hx] at h
      cases hm : as.mapM f with
      | none => rw [hm] at h; cases h
      | some bs' =>
        rw [hm] at h; cases h
        cases i with
        | zero => cases ha; exact ⟨b, hx, rfl⟩
        | succ i => exact ih hm ha
end Junction

namespace Reservoir
open Spec
variable {T : Type} [Scalar T]

/-! ### Cells -/

/-- helper -/
theorem entry_atCell {α : Type} (m : List (List α)) (c i : Nat) : entry c m i = atCell m c i := by
  unfold entry atCell coordinates
  dsimp only
  cases m[i / c]? <;> rfl

/-- helper -/
theorem cell_inj {c i k : Nat} (h1 : i / c = k / c) (h2 : i % c = k % c) : i = k := by
  rw [← Nat.div_add_mod i c, ← Nat.div_add_mod k c, h1, h2]

/-- helper -/
theorem layer_setLayer {r : Reservoir T} {i : Nat} {l0 : Layer T} (h : r.layer i = some l0) (l : Layer T) (k : Nat) :
    (r.setLayer i l).layer k = if k = i then some l else r.layer k := by
  unfold layer at h ⊢
  rw [entry_atCell] at h
  rw [entry_atCell, entry_atCell]
  unfold setLayer atCell coordinates
  dsimp only
  unfold atCell at h
  rw [List.getElem?_modify]
  by_cases hrow : i / r.cols = k / r.cols
  · rw [hrow] at h
    cases hr : r.layers[k / r.cols]? with
    | none => rw [hr] at h; cases h
    | some row =>
      rw [hr] at h
      simp only [Option.bind_some] at h
      simp only [hrow, if_true, Option.map_eq_map, Option.map_some, Option.bind_some]
      rw [List.getElem?_set]
      by_cases hcol : i % r.cols = k % r.cols
      · have hki : k = i := (cell_inj hrow hcol).symm
        subst hki
        rw [if_pos rfl, if_pos rfl, if_pos (List.getElem?_eq_some_iff.1 h).1]
      · have hki : k ≠ i := by rintro rfl; exact hcol rfl
        rw [if_neg hcol, if_neg hki]
  · have hki : k ≠ i := by rintro rfl; exact hrow rfl
    rw [if_neg hki]
    simp only [hrow, if_false]
    cases r.layers[k / r.cols]? <;> rfl

/-! ### The tensors -/

/-- helper: the other elements, in order -/
def partners (n p : Nat) : List Nat := (List.range n).filter (· ≠ p)

/-- helper: the partner of `p` in a pair -/
def partner (p : Nat) (q : Nat × Nat) : Option Nat := if q.1 = p then some q.2 else if q.2 = p then some q.1 else none

/-- helper -/
theorem pairs_partner {n p : Nat} (hp : p < n) : (pairs n).filterMap (partner p) = partners n p := by
  have hblock : ∀ a, (((List.range n).filter (a < ·)).map fun b => (a, b)).filterMap (partner p) =
      if a = p then (List.range n).filter (p < ·) else if a < p then [a] else [] := by
    intro a
    rw [List.filterMap_map]
    by_cases hap : a = p
    · subst hap
      rw [if_pos rfl]
      have : (partner a ∘ fun b => (a, b)) = some := by funext b; simp [partner]
      rw [this, List.filterMap_some]
    · rw [if_neg hap]
      have : (partner p ∘ fun b => (a, b)) = fun b => if b = p then some a else none := by funext b; simp [partner, hap]
      rw [this]
      have hfm : ∀ l : List Nat, l.Nodup → l.filterMap (fun b => if b = p then some a else none) = if p ∈ l then [a] else [] := by
        intro l hl
        induction l with
        | nil => simp
        | cons x l ih =>
          obtain ⟨h1, h2⟩ := List.nodup_cons.1 hl
          by_cases hx : x = p
          · subst hx
            simp [ih h2, h1]
          · simp [hx, ih h2, Ne.symm hx]
      rw [hfm _ (List.nodup_range.filter _)]
      simp [hp]
  unfold pairs
  rw [List.filterMap_flatMap]
  simp only [hblock]
  refine List.Pairwise.eq_of_mem_iff (r := (· < ·)) (l₁ := _) (l₂ := _) ?_ ?_ ?_
  · rw [List.pairwise_flatMap]
    constructor
    · intro a _
      split
      · exact List.pairwise_lt_range.filter _
      · split
        · simp
        · simp
    · refine List.pairwise_lt_range.imp ?_
      intro a b hab x hx y hy
      by_cases hb : b = p
      · subst hb
        rw [if_pos rfl] at hy
        rw [if_neg (by omega), if_pos hab] at hx
        simp at hx hy
        omega
      · rw [if_neg hb] at hy
        by_cases hbp : b < p
        · rw [if_pos hbp] at hy
          rw [if_neg (by omega), if_pos (by omega)] at hx
          simp at hx hy
          omega
        · rw [if_neg hbp] at hy
          simp at hy
  · exact List.pairwise_lt_range.filter _
  · intro x
    unfold partners
    simp only [List.mem_flatMap, List.mem_range, List.mem_filter, decide_eq_true_eq]
    constructor
    · rintro ⟨a, ha, hx⟩
      by_cases hap : a = p
      · rw [if_pos hap] at hx
        simp at hx
        omega
      · rw [if_neg hap] at hx
        split at hx
        · simp at hx; omega
        · simp at hx
    · rintro ⟨hx, hxp⟩
      rcases lt_or_gt_of_ne hxp with h | h
      · exact ⟨x, hx, by rw [if_neg hxp, if_pos h]; simp⟩
      · exact ⟨p, hp, by rw [if_pos rfl]; simp; exact ⟨hx, h⟩⟩

/-- helper -/
theorem pairs_mem {n : Nat} {q : Nat × Nat} (h : q ∈ pairs n) : q.1 < q.2 ∧ q.2 < n := by
  unfold pairs at h
  simp only [List.mem_flatMap, List.mem_range, List.mem_map, List.mem_filter, decide_eq_true_eq] at h
  obtain ⟨a, ha, b, ⟨hb, hab⟩, rfl⟩ := h
  exact ⟨hab, hb⟩

/-- helper -/
theorem push_loop {cols : Nat} {pos : List (List (CVec T))} {R : Nat → CVec T} (ps : List (Nat × Nat)) (acc : List (List (Tensor T)))
    (h : ∀ q ∈ ps, q.1 ≠ q.2 ∧ entry cols pos q.1 = some (R q.1) ∧ entry cols pos q.2 = some (R q.2)) :
    ∃ acc', ps.foldl (pushPair cols pos) (some acc) = some acc' ∧ acc'.length = acc.length ∧
      ∀ p ds, acc[p]? = some ds → acc'[p]? = some (ds ++ (ps.filterMap (partner p)).map fun k => pairTensor (R p) (R k)) := by
  induction ps generalizing acc with
  | nil => exact ⟨acc, rfl, rfl, fun p ds hp => by simpa using hp⟩
  | cons q ps ih =>
    obtain ⟨hne, h1, h2⟩ := h q (by simp)
    rw [List.foldl_cons]
    have hstep : pushPair cols pos (some acc) q =
        some (pushAt (pushAt acc q.1 (pairTensor (R q.1) (R q.2))) q.2 (pairTensor (R q.2) (R q.1))) := by
      unfold pushPair
      rw [h1, h2]
    rw [hstep]
    obtain ⟨acc', e1, e2, e3⟩ := ih (pushAt (pushAt acc q.1 (pairTensor (R q.1) (R q.2))) q.2 (pairTensor (R q.2) (R q.1)))
      (fun x hx => h x (List.mem_cons_of_mem _ hx))
    refine ⟨acc', e1, by rw [e2]; simp [pushAt], ?_⟩
    intro p ds hp
    have hp' : (pushAt (pushAt acc q.1 (pairTensor (R q.1) (R q.2))) q.2 (pairTensor (R q.2) (R q.1)))[p]? =
        some (ds ++ ((partner p q).toList.map fun k => pairTensor (R p) (R k))) := by
      unfold pushAt partner
      rw [List.getElem?_modify, List.getElem?_modify, hp]
      simp only [Option.map_eq_map, Option.map_some]
      by_cases ha : q.1 = p
      · have hb : q.2 ≠ p := fun hb => hne (ha.trans hb.symm)
        simp [ha, hb]
      · by_cases hb : q.2 = p
        · simp [ha, hb]
        · simp [ha, hb]
    rw [e3 p _ hp']
    rw [List.filterMap_cons]
    cases partner p q <;> simp

/-- helper -/
theorem push_none (cols : Nat) (pos : List (List (CVec T))) (ps : List (Nat × Nat)) : ps.foldl (pushPair cols pos) none = none := by
  induction ps with
  | nil => rfl
  | cons q ps ih => rw [List.foldl_cons]; exact ih

/-- helper -/
theorem push_defined {cols : Nat} {pos : List (List (CVec T))} (ps : List (Nat × Nat)) (acc : List (List (Tensor T)))
    {d : List (List (Tensor T))} (h : ps.foldl (pushPair cols pos) (some acc) = some d) :
    ∀ q ∈ ps, (entry cols pos q.1).isSome ∧ (entry cols pos q.2).isSome := by
  induction ps generalizing acc with
  | nil => simp
  | cons q ps ih =>
    rw [List.foldl_cons] at h
    unfold pushPair at h
    cases h1 : entry cols pos q.1 with
    | none => rw [h1] at h; exact absurd (h.symm.trans (push_none ..)) (by simp)
    | some ra =>
      cases h2 : entry cols pos q.2 with
      | none => rw [h1, h2] at h; exact absurd (h.symm.trans (push_none ..)) (by simp)
      | some rb =>
        rw [h1, h2] at h
        intro x hx
        rcases List.mem_cons.1 hx with rfl | hx
        · simp [h1, h2]
        · exact ih _ h x hx

/-- helper -/
theorem pairs_cover {n i : Nat} (hn : 2 ≤ n) (hi : i < n) : ∃ q ∈ pairs n, q.1 = i ∨ q.2 = i := by
  by_cases h0 : i = 0
  · refine ⟨(0, 1), ?_, .inl h0.symm⟩
    unfold pairs
    simp only [List.mem_flatMap, List.mem_range, List.mem_map, List.mem_filter, decide_eq_true_eq]
    exact ⟨0, by omega, 1, ⟨by omega, by omega⟩, rfl⟩
  · refine ⟨(0, i), ?_, .inr rfl⟩
    unfold pairs
    simp only [List.mem_flatMap, List.mem_range, List.mem_map, List.mem_filter, decide_eq_true_eq]
    exact ⟨0, by omega, i, ⟨hi, by omega⟩, rfl⟩

/-- helper: a constructed reservoir with element `i` at `R i`, after any calls -/
structure Sound (R : Nat → CVec T) (r : Reservoir T) : Prop where
  two : 2 ≤ r.noElements
  lenMs : r.Ms.length = r.noElements
  element : ∀ i < r.noElements, ∃ l, r.layer i = some l ∧ r.Ms[i]? = some l.Ms ∧ r.volume[i]? = some (l.thickness * l.cellSurface)
  dipoles : ∀ i < r.noElements, r.dipoles[i]? = some ((partners r.noElements i).map fun k => pairTensor (R i) (R k))

/-- C42: which reservoirs can be built: at least two elements, a position and a layer for each. Everything else reads
outside the given matrices. -/
theorem C42_constructor (pos : List (List (CVec T))) (layers : List (List (Layer T))) :
    ((∃ r, mk' pos layers = .ok r) ↔ ∃ row, pos.head? = some row ∧ 2 ≤ pos.length * row.length ∧
      ∀ i < pos.length * row.length, (atCell pos row.length i).isSome ∧ (atCell layers row.length i).isSome) ∧
    ((¬ ∃ r, mk' pos layers = .ok r) → mk' pos layers = .error .ub) := by
  unfold mk'
  cases pos with
  | nil => simp
  | cons row pos =>
    simp only [List.head?_cons, Option.some.injEq, exists_eq_left']
    set n := (row :: pos).length * row.length with hn
    by_cases hl : ∀ i ∈ List.range n, ∃ b, entry row.length layers i = some b
    · obtain ⟨ls, e1, e2, e3⟩ := Junction.mapM_some (entry row.length layers) (List.range n) hl
      rw [e1]
      dsimp only
      unfold dipoleMatrix
      by_cases h2 : n < 2
      · rw [if_pos h2]
        simp
        intro h; omega
      · rw [if_neg h2]
        cases hf : (pairs n).foldl (pushPair row.length (row :: pos)) (some (List.replicate n [])) with
        | none =>
          simp only [reduceCtorEq, exists_false, false_iff, not_and, not_false_eq_true, forall_true_left, and_true]
          intro _ hall
          have hR : ∀ i, ∃ v, i < n → entry row.length (row :: pos) i = some v := by
            intro i
            by_cases hi : i < n
            · obtain ⟨v, hv⟩ := Option.isSome_iff_exists.1 (hall i hi).1
              exact ⟨v, fun _ => by rw [entry_atCell, hv]⟩
            · exact ⟨.zero, fun h => absurd h hi⟩
          choose R hR using hR
          obtain ⟨acc', e, -⟩ := push_loop (R := R) (pairs n) (List.replicate n []) (fun q hq => by
            obtain ⟨q1, q2⟩ := pairs_mem hq
            exact ⟨by omega, hR _ (by omega), hR _ (by omega)⟩)
          rw [hf] at e
          cases e
        | some d =>
          refine ⟨⟨fun _ => ⟨by omega, fun i hi => ⟨?_, ?_⟩⟩, fun _ => ⟨_, rfl⟩⟩, fun h => absurd ⟨_, rfl⟩ h⟩
          · rw [← entry_atCell]
            obtain ⟨q, hq, hqi⟩ := pairs_cover (by omega) hi
            have := push_defined _ _ hf q hq
            rcases hqi with rfl | rfl
            exacts [this.1, this.2]
          · rw [← entry_atCell]
            obtain ⟨b, hb⟩ := hl i (by simpa using hi)
            rw [hb]; rfl
    · have : (List.range n).mapM (entry row.length layers) = none := by
        by_contra hne
        obtain ⟨ls, hls⟩ := Option.ne_none_iff_exists'.1 hne
        refine hl fun i hi => ?_
        have : ∀ (is : List Nat) (ls : List (Layer T)), is.mapM (entry row.length layers) = some ls →
            ∀ i ∈ is, ∃ b, entry row.length layers i = some b := by
          intro is
          induction is with
          | nil => simp
          | cons a is ih =>
            intro ls h
            rw [List.mapM_cons] at h
            cases ha : entry row.length layers a with
            | none => rw [ha] at h; cases h
            | some b =>
              rw [ha] at h
              cases hm : is.mapM (entry row.length layers) with
              | none => rw [hm] at h; cases h
              | some bs =>
                intro x hx
                rcases List.mem_cons.1 hx with rfl | hx
                · exact ⟨b, ha⟩
                · exact ih bs hm x hx
        exact this _ ls hls i hi
      rw [this]
      simp only [reduceCtorEq, exists_false, false_iff, not_and, not_false_eq_true, forall_true_left, and_true]
      intro _ hall
      refine hl fun i hi => ?_
      obtain ⟨v, hv⟩ := Option.isSome_iff_exists.1 (hall i (by simpa using hi)).2
      exact ⟨v, by rw [entry_atCell, hv]⟩

/-! ### The invariant -/

/-- helper -/
def Alike (l l' : Layer T) : Prop := l'.Ms = l.Ms ∧ l'.thickness = l.thickness ∧ l'.cellSurface = l.cellSurface

/-- helper -/
theorem alike_of_same {l l' : Layer T} (h : Layer.Same l l') : Alike l l' := by
  obtain ⟨_, _, _, _, _, rfl⟩ := h; exact ⟨rfl, rfl, rfl⟩

/-- helper: nothing but magnetisations, drivers, frozen copies and the log changed -/
structure Frame (r r' : Reservoir T) : Prop where
  rows : r'.rows = r.rows
  cols : r'.cols = r.cols
  Ms : r'.Ms = r.Ms
  volume : r'.volume = r.volume
  dipoles : r'.dipoles = r.dipoles
  layers : ∀ k l, r.layer k = some l → ∃ l', r'.layer k = some l' ∧ Alike l l'

/-- helper -/
theorem Frame.refl (r : Reservoir T) : Frame r r := ⟨rfl, rfl, rfl, rfl, rfl, fun _ l h => ⟨l, h, rfl, rfl, rfl⟩⟩

/-- helper -/
theorem Frame.trans {r r' r'' : Reservoir T} (h : Frame r r') (h' : Frame r' r'') : Frame r r'' :=
  ⟨h'.rows.trans h.rows, h'.cols.trans h.cols, h'.Ms.trans h.Ms, h'.volume.trans h.volume, h'.dipoles.trans h.dipoles, fun k l hl => by
    obtain ⟨l', h1, a1, a2, a3⟩ := h.layers k l hl
    obtain ⟨l'', h2, b1, b2, b3⟩ := h'.layers k l' h1
    exact ⟨l'', h2, b1.trans a1, b2.trans a2, b3.trans a3⟩⟩

/-- helper -/
theorem frame_setLayer {r : Reservoir T} {i : Nat} {l l' : Layer T} (h : r.layer i = some l) (ha : Alike l l') : Frame r (r.setLayer i l') :=
  ⟨rfl, rfl, rfl, rfl, rfl, fun k x hx => by
    rw [layer_setLayer h]
    by_cases hk : k = i
    · subst hk
      rw [if_pos rfl]
      obtain rfl : l = x := Option.some.inj (h.symm.trans hx)
      exact ⟨l', rfl, ha⟩
    · rw [if_neg hk]; exact ⟨x, hx, rfl, rfl, rfl⟩⟩

/-- helper -/
theorem frame_element (r : Reservoir T) (t dt : T) (i : Nat) : Frame r (r.solveElement t dt i).st := by
  unfold solveElement
  cases hv : r.volume[i]? with
  | none => exact .refl r
  | some v =>
    cases hl : r.layer i with
    | none => exact .refl r
    | some l =>
      dsimp only
      cases r.dipoleField i v with
      | error e => exact .refl r
      | ok h =>
        dsimp only
        exact frame_setLayer hl (alike_of_same (l.rk4D_same t dt .zero .zero h))

/-- helper -/
theorem frame_all (t dt : T) (is : List Nat) (r : Reservoir T) : Frame r (solveAll t dt is r).st := by
  induction is generalizing r with
  | nil => exact .refl r
  | cons i is ih =>
    unfold solveAll
    have h1 := frame_element r t dt i
    rcases hs : r.solveElement t dt i with ⟨_ | u, s⟩
    · rw [hs] at h1; exact h1
    · rw [hs] at h1; exact h1.trans (ih s)

/-- helper -/
theorem frame_solver (r : Reservoir T) (t dt : T) : Frame r (r.runSolver t dt).st := by
  unfold runSolver
  have h : ∀ r', r.collectFrozen = .ok r' → Frame r r' := by
    intro r' h
    unfold collectFrozen at h
    split at h
    · cases h; exact ⟨rfl, rfl, rfl, rfl, rfl, fun _ l h => ⟨l, h, rfl, rfl, rfl⟩⟩
    · cases h
  cases hc : r.collectFrozen with
  | error e => exact .refl r
  | ok r' => exact (h r' hc).trans (frame_all t dt _ r')

/-- helper -/
theorem frame_log (r : Reservoir T) (t : T) : Frame r (r.logData t).st := by
  unfold logData
  split
  · exact ⟨rfl, rfl, rfl, rfl, rfl, fun _ l h => ⟨l, h, rfl, rfl, rfl⟩⟩
  · exact .refl r

/-- helper -/
theorem frame_loop (dt : T) (i n : Nat) (r : Reservoir T) : Frame r (loop dt i n r).st := by
  induction n generalizing i r with
  | zero => exact .refl r
  | succ n ih =>
    unfold loop
    dsimp only
    have h1 := frame_solver r (Scalar.lit (i : ℚ) * dt) dt
    rcases hs : r.runSolver (Scalar.lit (i : ℚ) * dt) dt with ⟨_ | u, s⟩
    · rw [hs] at h1; exact h1
    · rw [hs] at h1
      have h2 := frame_log s (Scalar.lit (i : ℚ) * dt)
      rcases hs' : s.logData (Scalar.lit (i : ℚ) * dt) with ⟨_ | u, s'⟩
      · rw [hs'] at h2
        simp only [Out.bind, hs']
        exact h1.trans h2
      · rw [hs'] at h2
        simp only [Out.bind, hs']
        exact (h1.trans h2).trans (ih (i + 1) s')

/-- helper -/
theorem frame_onLayer (r : Reservoir T) (i : Nat) (f : Layer T → Layer T) (hf : ∀ l, Alike l (f l)) : Frame r (r.onLayer i f).st := by
  unfold onLayer
  cases h : r.layer i with
  | none => exact .refl r
  | some l => exact frame_setLayer h (hf l)

/-- helper -/
theorem frame_call (r : Reservoir T) (c : ReservoirCall T) : Frame r (c.exec r).st := by
  cases c with
  | allExternal d =>
    refine ⟨rfl, rfl, rfl, rfl, rfl, fun k l h => ?_⟩
    refine ⟨l.setExternalFieldDriver d, ?_, rfl, rfl, rfl⟩
    unfold layer at h ⊢
    rw [entry_atCell] at h ⊢
    unfold atCell at h ⊢
    simp only [ReservoirCall.exec, Out.ok, setAllExternalField, List.getElem?_map]
    cases hr : r.layers[k / r.cols]? with
    | none => rw [hr] at h; cases h
    | some row =>
      rw [hr] at h
      simp only [Option.bind_some] at h
      simp [h]
  | external i d => exact frame_onLayer r i _ fun l => ⟨rfl, rfl, rfl⟩
  | anisotropy i d => exact frame_onLayer r i _ fun l => ⟨rfl, rfl, rfl⟩
  | clearLogs => exact ⟨rfl, rfl, rfl, rfl, rfl, fun _ l h => ⟨l, h, rfl, rfl, rfl⟩⟩
  | run total dt =>
    show Frame r (r.runSimulation total dt).st
    unfold runSimulation
    split
    · exact frame_loop dt _ _ r
    · exact .refl r

/-- helper -/
theorem Sound.frame {R : Nat → CVec T} {r r' : Reservoir T} (h : Sound R r) (hf : Frame r r') : Sound R r' := by
  have hn : r'.noElements = r.noElements := by unfold noElements; rw [hf.rows, hf.cols]
  refine ⟨by rw [hn]; exact h.two, by rw [hf.Ms, hn]; exact h.lenMs, ?_, ?_⟩
  · intro i hi
    rw [hn] at hi
    obtain ⟨l, h1, h2, h3⟩ := h.element i hi
    obtain ⟨l', h1', a1, a2, a3⟩ := hf.layers i l h1
    exact ⟨l', h1', by rw [hf.Ms, h2, a1], by rw [hf.volume, h3, a2, a3]⟩
  · intro i hi
    rw [hn] at hi ⊢
    rw [hf.dipoles]
    exact h.dipoles i hi

/-- helper -/
theorem sound_mk {pos : List (List (CVec T))} {layers : List (List (Layer T))} {r : Reservoir T} {row : List (CVec T)} {R : Nat → CVec T}
    (hpos : pos.head? = some row) (hR : ∀ i < pos.length * row.length, atCell pos row.length i = some (R i)) (h : mk' pos layers = .ok r) :
    Sound R r ∧ r.rows = pos.length ∧ r.cols = row.length := by
  unfold mk' at h
  cases pos with
  | nil => cases h
  | cons row' pos =>
    obtain rfl : row' = row := by simpa using hpos
    dsimp only at h
    set n := (row' :: pos).length * row'.length with hn
    cases hm : (List.range n).mapM (entry row'.length layers) with
    | none => rw [hm] at h; cases h
    | some ls =>
      rw [hm] at h
      dsimp only at h
      unfold dipoleMatrix at h
      by_cases h2 : n < 2
      · rw [if_pos h2] at h; cases h
      · rw [if_neg h2] at h
        obtain ⟨d, e1, e2, e3⟩ := push_loop (R := R) (pairs n) (List.replicate n []) (fun q hq => by
            obtain ⟨q1, q2⟩ := pairs_mem hq
            exact ⟨by omega, by rw [entry_atCell]; exact hR _ (by omega), by rw [entry_atCell]; exact hR _ (by omega)⟩)
        rw [e1] at h
        cases h
        refine ⟨⟨?_, ?_, ?_, ?_⟩, rfl, rfl⟩
        · show 2 ≤ (row' :: pos).length * row'.length
          omega
        · show (ls.map Layer.Ms).length = n
          rw [List.length_map]
          have := Junction.mapM_length hm
          simpa using this
        · intro i hi
          have hi' : i < n := hi
          obtain ⟨l, hl, hli⟩ := Junction.mapM_get hm (List.getElem?_range hi')
          refine ⟨l, hl, ?_, ?_⟩
          · simp [hli]
          · simp [hli]
        · intro i hi
          have hi' : i < n := hi
          have := e3 i [] (by simp [hi'])
          rw [pairs_partner hi', List.nil_append] at this
          exact this

/-- helper -/
theorem all_ok {t dt : T} {L L' : Nat → Layer T} {H : Nat → CVec T} (is : List Nat) (hnd : is.Nodup) (r : Reservoir T)
    (hL : ∀ i ∈ is, r.layer i = some (L i)) (hH : ∀ i ∈ is, ∃ v, r.volume[i]? = some v ∧ r.dipoleField i v = .ok (H i))
    (hs : ∀ i ∈ is, (L i).rk4StepDipoleInjection t dt .zero .zero (H i) = .ok () (L' i)) :
    ∃ r', solveAll t dt is r = .ok () r' ∧ r'.rows = r.rows ∧ r'.cols = r.cols ∧ r'.log = r.log ∧
      ∀ k, r'.layer k = if k ∈ is then some (L' k) else r.layer k := by
  induction is generalizing r with
  | nil => exact ⟨r, rfl, rfl, rfl, rfl, fun k => by simp⟩
  | cons i is ih =>
    obtain ⟨hi, hnd⟩ := List.nodup_cons.1 hnd
    have hLi := hL i (by simp)
    obtain ⟨v, hv, hf⟩ := hH i (by simp)
    have h1 : r.solveElement t dt i = .ok () (r.setLayer i (L' i)) := by
      unfold solveElement
      rw [hv, hLi]
      dsimp only
      rw [hf]
      dsimp only
      rw [hs i (by simp)]
      rfl
    unfold solveAll
    rw [h1]
    obtain ⟨r', e1, e2, e3, e4, e5⟩ := ih hnd (r.setLayer i (L' i))
      (fun k hk => by
        rw [layer_setLayer hLi, if_neg (by rintro rfl; exact hi hk)]
        exact hL k (List.mem_cons_of_mem _ hk))
      (fun k hk => hH k (List.mem_cons_of_mem _ hk)) (fun k hk => hs k (List.mem_cons_of_mem _ hk))
    refine ⟨r', e1, e2, e3, e4, fun k => ?_⟩
    rw [e5, layer_setLayer hLi]
    by_cases hk : k = i
    · subst hk; simp [hi]
    · simp [hk]

/-- helper -/
theorem all_only {t dt : T} {L : Nat → Layer T} {H : Nat → CVec T} (is : List Nat) (hnd : is.Nodup) (r r' : Reservoir T)
    (hL : ∀ i ∈ is, r.layer i = some (L i)) (hH : ∀ i ∈ is, ∃ v, r.volume[i]? = some v ∧ r.dipoleField i v = .ok (H i))
    (h : solveAll t dt is r = .ok () r') : ∀ i ∈ is, ∃ l', (L i).rk4StepDipoleInjection t dt .zero .zero (H i) = .ok () l' := by
  induction is generalizing r with
  | nil => simp
  | cons i is ih =>
    obtain ⟨hi, hnd⟩ := List.nodup_cons.1 hnd
    have hLi := hL i (by simp)
    obtain ⟨v, hv, hf⟩ := hH i (by simp)
    unfold solveAll solveElement at h
    rw [hv, hLi] at h
    dsimp only at h
    rw [hf] at h
    dsimp only at h
    rcases hs : (L i).rk4StepDipoleInjection t dt .zero .zero (H i) with ⟨_ | ⟨⟩, l'⟩
    · rw [hs] at h
      simp [Out.bind, Out.ok] at h
    · rw [hs] at h
      intro k hk
      rcases List.mem_cons.1 hk with rfl | hk
      · exact ⟨l', hs⟩
      · exact ih hnd (r.setLayer i l') (fun q hq => by
          rw [layer_setLayer hLi, if_neg (fun e : q = i => hi (e ▸ hq))]
          exact hL q (List.mem_cons_of_mem _ hq))
          (fun q hq => hH q (List.mem_cons_of_mem _ hq)) h k hk

/-- helper -/
theorem dipoleSum_map (ks : List Nat) (D : Nat → Tensor T) (m : Nat → CVec T) (s : Nat → T) (x : List (CVec T)) (y : List T) (h : CVec T) :
    dipoleSum (ks.map D) (ks.map m ++ x) (ks.map s ++ y) h = .ok (ks.foldl (fun h k => h + Tensor.interaction (m k) (D k) (s k)) h) := by
  induction ks generalizing h with
  | nil => cases x <;> cases y <;> rfl
  | cons k ks ih => exact ih _

/-- helper -/
theorem partners_eq {n i : Nat} (hi : i < n) : partners n i = (List.range (n - 1)).map fun k => if k < i then k else k + 1 := by
  unfold partners
  refine List.Pairwise.eq_of_mem_iff (r := (· < ·)) ?_ ?_ ?_
  · exact List.pairwise_lt_range.filter _
  · rw [List.pairwise_map]
    refine List.pairwise_lt_range.imp ?_
    intro a b hab
    split <;> split <;> omega
  · intro x
    simp only [List.mem_filter, List.mem_range, List.mem_map, decide_eq_true_eq]
    constructor
    · rintro ⟨h1, h2⟩
      rcases lt_or_gt_of_ne h2 with h | h
      · exact ⟨x, by omega, by rw [if_pos h]⟩
      · exact ⟨x - 1, by omega, by rw [if_neg (by omega)]; omega⟩
    · rintro ⟨k, hk, rfl⟩
      split <;> omega

/-- helper -/
theorem map_range {α : Type} {xs : List α} {n : Nat} (hl : xs.length = n) {f : Nat → α} (h : ∀ i < n, xs[i]? = some (f i)) :
    xs = (List.range n).map f := by
  refine List.ext_getElem? fun i => ?_
  by_cases hi : i < n
  · rw [h i hi]; simp [hi]
  · rw [List.getElem?_eq_none (by omega), List.getElem?_eq_none (by simp; omega)]

/-- helper -/
theorem range_split {α : Type} (n : Nat) (f : Nat → α) : ∃ x, (List.range n).map f = (List.range (n - 1)).map f ++ x := by
  cases n with
  | zero => exact ⟨[], rfl⟩
  | succ n => exact ⟨[f n], by simp [List.range_succ]⟩

/-- helper -/
theorem frozen_field {R : Nat → CVec T} {r : Reservoir T} (h : Sound R r) {L : Nat → Layer T} (hL : ∀ i < r.noElements, r.layer i = some (L i)) :
    ∃ r1, r.collectFrozen = .ok r1 ∧ r1.rows = r.rows ∧ r1.cols = r.cols ∧ r1.log = r.log ∧ r1.layers = r.layers ∧ r1.volume = r.volume ∧
      ∀ i < r.noElements, r1.volume[i]? = some ((L i).thickness * (L i).cellSurface) ∧ ∀ v, r1.dipoleField i v = .ok
        ((List.range (r.noElements - 1)).foldl (fun h k => h + Tensor.interaction (L k).mag
          (pairTensor (R i) (R (if k < i then k else k + 1))) (L k).Ms) .zero * v) := by
  obtain ⟨ls, e1, e2, e3⟩ := Junction.mapM_some r.layer (List.range r.noElements) (fun i hi => ⟨_, hL i (by simpa using hi)⟩)
  have hls : ls = (List.range r.noElements).map L := by
    refine map_range (by simpa using e2) fun i hi => ?_
    obtain ⟨b, hb, hb'⟩ := Junction.mapM_get e1 (List.getElem?_range hi)
    rw [hL i hi] at hb
    cases hb
    exact hb'
  have hMs : r.Ms = (List.range r.noElements).map fun k => (L k).Ms := by
    refine map_range h.lenMs fun i hi => ?_
    obtain ⟨l, h1, h2, h3⟩ := h.element i hi
    rw [hL i hi] at h1
    cases h1
    exact h2
  refine ⟨{ r with frozen := ls.map Layer.mag }, by unfold collectFrozen; rw [e1], rfl, rfl, rfl, rfl, rfl, fun i hi => ⟨?_, fun v => ?_⟩⟩
  · obtain ⟨l, h1, h2, h3⟩ := h.element i hi
    rw [hL i hi] at h1
    cases h1
    exact h3
  · unfold dipoleField
    rw [show ({ r with frozen := ls.map Layer.mag } : Reservoir T).dipoles = r.dipoles from rfl, h.dipoles i hi]
    dsimp only
    rw [hMs, hls, List.map_map, partners_eq hi, List.map_map]
    obtain ⟨x, hx⟩ := range_split r.noElements (Layer.mag ∘ L)
    obtain ⟨y, hy⟩ := range_split r.noElements (fun k => (L k).Ms)
    rw [hx, hy, dipoleSum_map]
    rfl

/-! ### Real arithmetic -/

/-- helper -/
theorem foldl_vsum (n : Nat) (f : Nat → CVec ℝ) : (List.range n).foldl (fun h k => h + f k) CVec.zero = vsum (Finset.range n) f := by
  induction n with
  | zero => ext <;> simp [vsum, CVec.zero]
  | succ n ih =>
    rw [List.range_succ, List.foldl_append, ih]
    ext <;> simp [vsum, Finset.sum_range_succ]

/-- helper -/
theorem interaction_pair (r1 r2 m : CVec ℝ) (s : ℝ) (h : 0 < away (r1 - r2)) :
    Tensor.interaction m (pairTensor r1 r2) s = pointDipole (smul (s / (1257 / 10 ^ 9)) m) (r1 - r2) := by
  rw [← Dipole.pointDipole_swap]
  have h' : 0 < away (r2 - r1) := by rw [Dipole.away_swap]; exact h
  rw [← Dipole.tensorOf_apply (r2 - r1) m h' (s / (1257 / 10 ^ 9))]
  unfold pairTensor Tensor.interaction apply Const.mu0
  dsimp only
  simp only [smul, Scalar.ofSci_real_true]
  ext
  · simp only [CVec.mulr_x]; norm_num; ring
  · simp only [CVec.mulr_y]; norm_num; ring
  · simp only [CVec.mulr_z]; norm_num; ring

/-- helper -/
theorem field_real {n i : Nat} {R : Nat → CVec ℝ} {L : Nat → Layer ℝ} (hd : ∀ i < n, ∀ k < n, i ≠ k → 0 < away (R i - R k)) (hi : i < n) (v : ℝ) :
    (List.range (n - 1)).foldl (fun h k => h + Tensor.interaction (L k).mag (pairTensor (R i) (R (if k < i then k else k + 1))) (L k).Ms)
      CVec.zero * v = misalignedField n i R (fun k => (L k).mag) (fun k => (L k).Ms) v := by
  rw [foldl_vsum]
  have : vsum (Finset.range (n - 1)) (fun k => Tensor.interaction (L k).mag (pairTensor (R i) (R (if k < i then k else k + 1))) (L k).Ms) =
      vsum (Finset.range (n - 1)) (fun k => pointDipole (smul ((L k).Ms / (1257 / 10 ^ 9)) (L k).mag) (R i - R (if k < i then k else k + 1))) := by
    have hk : ∀ k ∈ Finset.range (n - 1), Tensor.interaction (L k).mag (pairTensor (R i) (R (if k < i then k else k + 1))) (L k).Ms =
        pointDipole (smul ((L k).Ms / (1257 / 10 ^ 9)) (L k).mag) (R i - R (if k < i then k else k + 1)) := by
      intro k hk
      have := Finset.mem_range.1 hk
      refine interaction_pair _ _ _ _ (hd _ hi _ ?_ ?_)
      · split <;> omega
      · split <;> omega
    unfold vsum
    rw [CVec.mk.injEq]
    exact ⟨Finset.sum_congr rfl fun k h => by dsimp only; rw [hk k h], Finset.sum_congr rfl fun k h => by dsimp only; rw [hk k h],
      Finset.sum_congr rfl fun k h => by dsimp only; rw [hk k h]⟩
  rw [this]
  unfold misalignedField
  ext <;> simp [smul, mul_comm]

/-- The reservoir has its elements at `R 0, …, R (n-1)`, at different points. -/
def Placed (pos : List (List (CVec ℝ))) (n : Nat) (R : Nat → CVec ℝ) : Prop :=
  ∃ row, pos.head? = some row ∧ n = pos.length * row.length ∧ (∀ i < n, atCell pos row.length i = some (R i)) ∧
    ∀ i < n, ∀ k < n, i ≠ k → 0 < away (R i - R k)

/-- helper -/
theorem reachable_sound {pos : List (List (CVec T))} {r : Reservoir T} (hr : ReservoirReachable pos r) {row : List (CVec T)} {R : Nat → CVec T}
    (hpos : pos.head? = some row) (hR : ∀ i < pos.length * row.length, atCell pos row.length i = some (R i)) :
    Sound R r ∧ r.noElements = pos.length * row.length := by
  obtain ⟨layers, r0, cs, h0, rfl⟩ := hr
  obtain ⟨h1, h2, h3⟩ := sound_mk hpos hR h0
  have : ∀ (cs : List (ReservoirCall T)) (r : Reservoir T), Frame r (cs.foldl (fun r c => (c.exec r).st) r) := by
    intro cs
    induction cs with
    | nil => exact fun r => .refl r
    | cons c cs ih => exact fun r => (frame_call r c).trans (ih _)
  have hf := this cs r0
  exact ⟨h1.frame hf, by unfold noElements; rw [hf.rows, hf.cols, h2, h3]⟩

/-- helper -/
theorem elements_layer {r : Reservoir T} {n : Nat} {L : Nat → Layer T} :
    Elements r n L ↔ r.noElements = n ∧ ∀ i < n, r.layer i = some (L i) := by
  unfold Elements noElements layer
  simp only [entry_atCell]

/-- helper -/
theorem step_sound {n : Nat} {R : Nat → CVec ℝ} {r : Reservoir ℝ} (hS : Sound R r) (hN : r.noElements = n)
    (hd : ∀ i < n, ∀ k < n, i ≠ k → 0 < away (R i - R k)) (t dt : ℝ) :
    ∃ L, Elements r n L ∧
      ((∃ r', r.runSolver t dt = .ok () r') ↔ ∀ i < n, ∃ l', (L i).rk4StepDipoleInjection t dt .zero .zero
        (misalignedField n i R (fun k => (L k).mag) (fun k => (L k).Ms) ((L i).thickness * (L i).cellSurface)) = .ok () l') ∧
      ∀ r', r.runSolver t dt = .ok () r' → ∃ L', Elements r' n L' ∧ ∀ i < n, (L i).rk4StepDipoleInjection t dt .zero .zero
        (misalignedField n i R (fun k => (L k).mag) (fun k => (L k).Ms) ((L i).thickness * (L i).cellSurface)) = .ok () (L' i) := by
  have hex : ∀ i, ∃ l, i < n → r.layer i = some l := by
    intro i
    by_cases hi : i < n
    · obtain ⟨l, hl, -⟩ := hS.element i (by omega)
      exact ⟨l, fun _ => hl⟩
    · obtain ⟨l, -⟩ := hS.element 0 (by have := hS.two; omega)
      exact ⟨l, fun h => absurd h hi⟩
  choose L hL using hex
  obtain ⟨r1, c1, c2, c3, c4, c5, c6, c7⟩ := frozen_field hS (L := L) (fun i hi => hL i (by omega))
  rw [hN] at c7
  have hN1 : r1.noElements = n := by unfold noElements; rw [c2, c3]; exact hN
  have hlay : ∀ k, r1.layer k = r.layer k := by intro k; unfold layer; rw [c3, c5]
  have hrun : r.runSolver t dt = solveAll t dt (List.range n) r1 := by unfold runSolver; rw [c1]; dsimp only; rw [hN1]
  have hL1 : ∀ i ∈ List.range n, r1.layer i = some (L i) := fun i hi => by rw [hlay]; exact hL i (by simpa using hi)
  have hH1 : ∀ i ∈ List.range n, ∃ v, r1.volume[i]? = some v ∧ r1.dipoleField i v =
      .ok (misalignedField n i R (fun k => (L k).mag) (fun k => (L k).Ms) ((L i).thickness * (L i).cellSurface)) := by
    intro i hi
    have hi' : i < n := by simpa using hi
    refine ⟨_, (c7 i hi').1, ?_⟩
    rw [(c7 i hi').2]
    congr 1
    exact field_real hd hi' _
  have : Nonempty (Layer ℝ) := ⟨L 0⟩
  have honly : ∀ r', r.runSolver t dt = .ok () r' → ∀ i < n, ∃ l', (L i).rk4StepDipoleInjection t dt .zero .zero
        (misalignedField n i R (fun k => (L k).mag) (fun k => (L k).Ms) ((L i).thickness * (L i).cellSurface)) = .ok () l' := by
    intro r' h i hi
    rw [hrun] at h
    exact all_only _ List.nodup_range r1 r' hL1 hH1 h i (by simpa using hi)
  refine ⟨L, elements_layer.2 ⟨hN, hL⟩, ⟨fun ⟨r', h⟩ => honly r' h, fun h => ?_⟩, fun r' h => ?_⟩
  · choose! L' hL' using h
    obtain ⟨r', e1, -⟩ := all_ok (List.range n) List.nodup_range r1 hL1 hH1 (fun i hi => hL' i (by simpa using hi))
    exact ⟨r', by rw [hrun, e1]⟩
  · have h' := honly r' h
    choose! L' hL' using h'
    obtain ⟨r2, e1, e2, e3, e4, e5⟩ := all_ok (List.range n) List.nodup_range r1 hL1 hH1 (fun i hi => hL' i (by simpa using hi))
    rw [hrun, e1] at h
    cases h
    refine ⟨L', elements_layer.2 ⟨?_, fun i hi => ?_⟩, hL'⟩
    · unfold noElements; rw [e2, e3]; exact hN1
    · rw [e5, if_pos (by simpa using hi)]

/-- C42: what one step of a reservoir does, after any client program: every element is integrated on its own, all of them
from the magnetisations before the step, with the field `misalignedField`. The step fails only if one of these fails. -/
theorem C42_step_actual {pos : List (List (CVec ℝ))} {n : Nat} {R : Nat → CVec ℝ} (hp : Placed pos n R) {r : Reservoir ℝ}
    (hr : ReservoirReachable pos r) (t dt : ℝ) :
    ∃ L, Elements r n L ∧
      ((∃ r', r.runSolver t dt = .ok () r') ↔ ∀ i < n, ∃ l', (L i).rk4StepDipoleInjection t dt .zero .zero
        (misalignedField n i R (fun k => (L k).mag) (fun k => (L k).Ms) ((L i).thickness * (L i).cellSurface)) = .ok () l') ∧
      ∀ r', r.runSolver t dt = .ok () r' → ∃ L', Elements r' n L' ∧ ∀ i < n, (L i).rk4StepDipoleInjection t dt .zero .zero
        (misalignedField n i R (fun k => (L k).mag) (fun k => (L k).Ms) ((L i).thickness * (L i).cellSurface)) = .ok () (L' i) := by
  obtain ⟨row, hpos, hn, hR, hd⟩ := hp
  obtain ⟨hS, hN⟩ := reachable_sound hr hpos (hn ▸ hR)
  rw [← hn] at hN
  exact step_sound hS hN hd t dt

/-- helper -/
theorem misaligned_last {n : Nat} (hn : 0 < n) (R m : Nat → CVec ℝ) (Ms : Nat → ℝ) (V : ℝ) :
    misalignedField n (n - 1) R m Ms V = reservoirField n (n - 1) R m Ms V := by
  have h1 : (Finset.range n).erase (n - 1) = Finset.range (n - 1) := by
    ext k; simp only [Finset.mem_erase, Finset.mem_range]; omega
  have h2 : ∀ k ∈ Finset.range (n - 1), (if k < n - 1 then k else k + 1) = k := fun k hk => if_pos (Finset.mem_range.1 hk)
  unfold misalignedField reservoirField
  rw [h1]
  congr 1
  unfold vsum
  rw [CVec.mk.injEq]
  exact ⟨Finset.sum_congr rfl fun k h => by dsimp only; rw [h2 k h], Finset.sum_congr rfl fun k h => by dsimp only; rw [h2 k h],
    Finset.sum_congr rfl fun k h => by dsimp only; rw [h2 k h]⟩

/-- C42, for the last element only: it feels the dipole field of all others, from the state before the step. The full
claim is this equation for every `i < n`; it fails for every other element (`C42_refuted`, `C42_last_ignored`). -/
theorem C42_last_partial {pos : List (List (CVec ℝ))} {n : Nat} {R : Nat → CVec ℝ} (hp : Placed pos n R) {r r' : Reservoir ℝ}
    (hr : ReservoirReachable pos r) (t dt : ℝ) (h : r.runSolver t dt = .ok () r') :
    ∃ L L', Elements r n L ∧ Elements r' n L' ∧ 2 ≤ n ∧ ∀ i < n, i = n - 1 → (L i).rk4StepDipoleInjection t dt .zero .zero
      (reservoirField n i R (fun k => (L k).mag) (fun k => (L k).Ms) ((L i).thickness * (L i).cellSurface)) = .ok () (L' i) := by
  have h2 : 2 ≤ n := by
    obtain ⟨row, hpos, hn, hR, hd⟩ := hp
    obtain ⟨hS, hN⟩ := reachable_sound hr hpos (hn ▸ hR)
    have := hS.two
    omega
  obtain ⟨L, hL, -, hs⟩ := C42_step_actual hp hr t dt
  obtain ⟨L', hL', hs⟩ := hs r' h
  refine ⟨L, L', hL, hL', h2, fun i hi hin => ?_⟩
  have := hs i hi
  subst hin
  rw [misaligned_last (by omega)] at this
  exact this

/-- C42: the last element acts on no other: if two reservoirs of the same geometry differ only in the last element, all
others are in the same state after a step. -/
theorem C42_last_ignored {pos : List (List (CVec ℝ))} {n : Nat} {R : Nat → CVec ℝ} (hp : Placed pos n R) {r r' q q' : Reservoir ℝ}
    (hr : ReservoirReachable pos r) (hq : ReservoirReachable pos q) (t dt : ℝ) (h : r.runSolver t dt = .ok () r') (h' : q.runSolver t dt = .ok () q')
    (heq : ∀ i < n - 1, r.layer i = q.layer i) : ∀ i < n - 1, r'.layer i = q'.layer i := by
  obtain ⟨L, hL, -, hs⟩ := C42_step_actual hp hr t dt
  obtain ⟨L', hL', hs⟩ := hs r' h
  obtain ⟨K, hK, -, hk⟩ := C42_step_actual hp hq t dt
  obtain ⟨K', hK', hk⟩ := hk q' h'
  have hLK : ∀ i < n - 1, L i = K i := by
    intro i hi
    have := heq i hi
    rw [(elements_layer.1 hL).2 i (by omega), (elements_layer.1 hK).2 i (by omega)] at this
    exact Option.some.inj this
  intro i hi
  rw [(elements_layer.1 hL').2 i (by omega), (elements_layer.1 hK').2 i (by omega)]
  have h1 := hs i (by omega)
  have h2 := hk i (by omega)
  rw [hLK i hi] at h1
  have : misalignedField n i R (fun k => (L k).mag) (fun k => (L k).Ms) ((K i).thickness * (K i).cellSurface) =
      misalignedField n i R (fun k => (K k).mag) (fun k => (K k).Ms) ((K i).thickness * (K i).cellSurface) := by
    unfold misalignedField vsum
    congr 1
    rw [CVec.mk.injEq]
    refine ⟨?_, ?_, ?_⟩ <;> refine Finset.sum_congr rfl fun k hk => ?_ <;>
      (dsimp only; rw [hLK k (Finset.mem_range.1 hk)])
  rw [this] at h1
  rw [h1] at h2
  simp only [Out.ok, Out.mk.injEq] at h2
  rw [h2.2]

/-! ### A concrete reservoir -/

/-- a row of two points -/
def twoPoints : List (List (CVec ℝ)) := [[⟨0, 0, 0⟩, ⟨1, 0, 0⟩]]

/-- the two points as a function -/
def twoR (i : Nat) : CVec ℝ := if i = 0 then ⟨0, 0, 0⟩ else ⟨1, 0, 0⟩

/-- two layers, magnetised along y and z -/
noncomputable def twoL (i : Nat) : Layer ℝ := if i = 0 then Junction.quietLayer.setMag ⟨0, 1, 0⟩ else Junction.quietLayer.setMag ⟨0, 0, 1⟩

/-- helper -/
theorem twoPlaced : Placed twoPoints 2 twoR := by
  refine ⟨_, rfl, by simp [twoPoints], ?_, ?_⟩
  · intro i hi
    interval_cases i <;> simp [twoPoints, atCell, twoR]
  · intro i hi k hk hik
    interval_cases i <;> interval_cases k <;> first | exact absurd rfl hik | simp [twoR, away]

/-- helper: a reservoir of two layers, just built -/
theorem two_exists : ∃ r : Reservoir ℝ, ReservoirReachable twoPoints r ∧ Elements r 2 twoL := by
  have hrow : twoPoints.head? = some [⟨0, 0, 0⟩, ⟨1, 0, 0⟩] := rfl
  obtain ⟨r, hr⟩ := (C42_constructor twoPoints [[twoL 0, twoL 1]]).1.2 ⟨_, hrow, by simp [twoPoints], by
    intro i hi
    have : i < 2 := by simpa [twoPoints] using hi
    interval_cases i <;> simp [twoPoints, atCell]⟩
  refine ⟨r, ⟨_, r, [], hr, rfl⟩, ?_⟩
  have hlay : r.layers = [[twoL 0, twoL 1]] := by
    unfold mk' twoPoints at hr
    dsimp only at hr
    split at hr
    · cases hr
    · split at hr
      · cases hr
      · cases hr; rfl
  obtain ⟨-, h1, h2⟩ := sound_mk (R := twoR) hrow (by
    intro i hi
    have : i < 2 := by simpa [twoPoints] using hi
    interval_cases i <;> simp [twoPoints, atCell, twoR]) hr
  refine ⟨by rw [h1, h2]; rfl, fun i hi => ?_⟩
  rw [hlay, h2]
  interval_cases i <;> simp [atCell]

/-- C42 fails: in a row of two elements, the field computed for the first one is not the field of the second one. (It is the
field of the first element's own magnetisation, placed at the second.) -/
theorem C42_refuted : ∃ (pos : List (List (CVec ℝ))) (R : Nat → CVec ℝ) (r r1 : Reservoir ℝ) (L : Nat → Layer ℝ) (h : CVec ℝ),
    Placed pos 2 R ∧ ReservoirReachable pos r ∧ Elements r 2 L ∧ r.collectFrozen = .ok r1 ∧
    r1.dipoleField 0 ((L 0).thickness * (L 0).cellSurface) = .ok h ∧
    h ≠ reservoirField 2 0 R (fun k => (L k).mag) (fun k => (L k).Ms) ((L 0).thickness * (L 0).cellSurface) ∧
    h = smul ((L 0).thickness * (L 0).cellSurface) (pointDipole (smul ((L 0).Ms / (1257 / 10 ^ 9)) (L 0).mag) (R 0 - R 1)) := by
  obtain ⟨r, hr, hL⟩ := two_exists
  obtain ⟨row, hpos, hn, hR, hd⟩ := twoPlaced
  obtain ⟨hS, hN⟩ := reachable_sound hr hpos (hn ▸ hR)
  rw [← hn] at hN
  obtain ⟨r1, c1, c2, c3, c4, c5, c6, c7⟩ := frozen_field hS (L := twoL) (fun i hi => (elements_layer.1 hL).2 i (by omega))
  rw [hN] at c7
  refine ⟨twoPoints, twoR, r, r1, twoL, _, ⟨row, hpos, hn, hR, hd⟩, hr, hL, c1, (c7 0 (by norm_num)).2 _, ?_, ?_⟩
  · rw [field_real hd (by norm_num)]
    intro h
    have hy := congrArg CVec.y h
    have he : (Finset.range 2).erase 0 = {1} := by decide
    have h10 : away ((⟨0, 0, 0⟩ : CVec ℝ) - ⟨1, 0, 0⟩) = 1 := by simp [away]
    have hpi := Real.pi_ne_zero
    simp [misalignedField, reservoirField, he, vsum, smul, pointDipole, twoR, twoL, Layer.setMag, Junction.quietLayer, plainOf, Layer.demo, h10] at hy
  · rw [field_real hd (by norm_num)]
    unfold misalignedField vsum
    simp

/-- the hypotheses of the step theorems are met by a reservoir whose step succeeds -/
example : ∃ r r' : Reservoir ℝ, Placed twoPoints 2 twoR ∧ ReservoirReachable twoPoints r ∧ r.runSolver 0 1 = .ok () r' := by
  obtain ⟨r, hr, hL⟩ := two_exists
  obtain ⟨L, hL', h, -⟩ := C42_step_actual twoPlaced hr 0 1
  have heq : ∀ i < 2, L i = twoL i := fun i hi => by
    have := ((elements_layer.1 hL').2 i hi).symm.trans ((elements_layer.1 hL).2 i hi)
    exact Option.some.inj this
  obtain ⟨r', hr'⟩ := h.2 fun i hi => by
    have hg : (L i).Guard := by
      rw [heq i hi]
      unfold Layer.Guard twoL
      split <;> simp [Layer.setMag, Junction.quietLayer, plainOf, Layer.demo]
    obtain ⟨c, hc⟩ := (L i).rk4D_ok 0 1 .zero .zero _ hg
    exact ⟨_, hc⟩
  exact ⟨r, r', twoPlaced, hr, hr'⟩

/-! ### C64: the sign of the dipole field -/

/-- C64: in a group, the field `h` handed to a layer is added to its effective field. -/
theorem C64_group (l : Layer ℝ) (t : ℝ) (m b a d fl h : CVec ℝ) (e0 : CVec ℝ) (s0 : Layer ℝ)
    (hl : l.HreservedDriver.value t = .zero) (h0 : l.calculateHeffDipoleInjection t m b a d fl = .ok e0 s0) :
    ∃ s, (l.setReservedInteractionField (AxialDriver.ofVec h)).calculateHeffDipoleInjection t m b a d fl = .ok (e0 + h) s := by
  by_cases hg : l.Guard
  · obtain ⟨c, hc⟩ := l.heffD_ok t m b a d fl hg
    obtain ⟨c', hc'⟩ := (l.setReservedInteractionField (AxialDriver.ofVec h)).heffD_ok t m b a d fl hg
    rw [hc] at h0
    simp only [Out.ok, Out.mk.injEq, Except.ok.injEq] at h0
    refine ⟨_, hc'.trans (congrArg (fun x => Out.ok x _) ?_)⟩
    rw [← h0.1]
    have hv : (AxialDriver.ofVec h).value t = h := by
      ext <;> simp [AxialDriver.ofVec, AxialDriver.value, ScalarDriver.value, ScalarDriver.constantDriver]
    unfold Layer.heffV Layer.setReservedInteractionField
    dsimp only
    rw [hv, hl]
    ext <;> simp [CVec.zero] <;> rfl
  · obtain ⟨c, hc⟩ := l.heffD_err t m b a d fl hg
    rw [hc] at h0
    simp [Out.ok, Out.fail] at h0

/-- C64: the dipole field `h` of the reservoir is subtracted from the effective field. -/
theorem C64_reservoir_actual (l : Layer ℝ) (t : ℝ) (m b a fl h : CVec ℝ) (e0 : CVec ℝ) (s0 : Layer ℝ)
    (h0 : l.calculateHeffDipoleInjection t m b a .zero fl = .ok e0 s0) :
    ∃ s, l.calculateHeffDipoleInjection t m b a h fl = .ok (e0 - h) s := by
  by_cases hg : l.Guard
  · obtain ⟨c, hc⟩ := l.heffD_ok t m b a .zero fl hg
    obtain ⟨c', hc'⟩ := l.heffD_ok t m b a h fl hg
    rw [hc] at h0
    simp only [Out.ok, Out.mk.injEq, Except.ok.injEq] at h0
    refine ⟨_, hc'.trans (congrArg (fun x => Out.ok x _) ?_)⟩
    rw [← h0.1]
    unfold Layer.heffV
    ext <;> simp [CVec.zero] <;> ring
  · obtain ⟨c, hc⟩ := l.heffD_err t m b a .zero fl hg
    rw [hc] at h0
    simp [Out.ok, Out.fail] at h0

/-- C64 fails: a group and a reservoir act on a layer with opposite fields. -/
theorem C64_refuted : ∃ (l : Layer ℝ) (h e e' : CVec ℝ) (s s' : Layer ℝ), l.HreservedDriver.value 0 = .zero ∧
    (l.setReservedInteractionField (AxialDriver.ofVec h)).calculateHeffDipoleInjection 0 l.mag .zero .zero .zero .zero = .ok e s ∧
    l.calculateHeffDipoleInjection 0 l.mag .zero .zero h .zero = .ok e' s' ∧ e ≠ e' := by
  have hg : Junction.quietLayer.Guard := by simp [Layer.Guard, Junction.quietLayer, plainOf, Layer.demo]
  have hz : Junction.quietLayer.HreservedDriver.value 0 = .zero := by
    simp [Junction.quietLayer, plainOf, Layer.demo, AxialDriver.value, AxialDriver.null, ScalarDriver.value, ScalarDriver.null, ScalarDriver.constantDriver, CVec.zero]
  obtain ⟨c, hc⟩ := Junction.quietLayer.heffD_ok 0 Junction.quietLayer.mag .zero .zero .zero .zero hg
  obtain ⟨s, h1⟩ := C64_group _ _ _ _ _ _ _ ⟨1, 0, 0⟩ _ _ hz hc
  obtain ⟨s', h2⟩ := C64_reservoir_actual _ _ _ _ _ _ ⟨1, 0, 0⟩ _ _ hc
  refine ⟨Junction.quietLayer, ⟨1, 0, 0⟩, _, _, s, s', hz, h1, h2, fun h => ?_⟩
  have := congrArg CVec.x h
  simp at this
  linarith

end Reservoir
