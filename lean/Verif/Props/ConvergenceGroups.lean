import Verif.Lemmas.EnsembleExist
import Verif.Props.GroupExamples
import Verif.Props.Dipoles
import Verif.Props.Convergence

/-!
C134: runs of groups of junctions converge to the solution of the coupled equations of motion.
-/

set_option linter.unusedSectionVars false
set_option linter.unusedSimpArgs false

namespace GroupInteraction
open Spec Order Junction

/-! ### What the members hold -/

/-- helper: the interaction of two members at a distance is `c` times the field of a point dipole -/
def Pairwise_ (f : Dipole.Interaction ℝ) (c : ℝ) : Prop := ∀ r1 r2 l1 l2, Apart r1 r2 →
  f r1 r2 l1 l2 = .ok (smul c (pointDipole (moment l2) (r1 - r2)))

/-- helper: the layer itself or the layer under some field -/
def Dressed (id : String) (L Q : Layer ℝ) : Prop := Q = L ∨ ∃ w, Q = exposed id w L

/-- helper -/
theorem exposed_id (id : String) (w : CVec ℝ) (l : Layer ℝ) : (exposed id w l).id = l.id := by unfold exposed; split <;> rfl

/-- helper -/
theorem Dressed.id {id : String} {L Q : Layer ℝ} (h : Dressed id L Q) : Q.id = L.id := by
  rcases h with rfl | ⟨w, rfl⟩
  · rfl
  · exact exposed_id ..

/-- helper -/
theorem exposed_moment (id : String) (w v : CVec ℝ) (c : LayerLog ℝ) (l : Layer ℝ) :
    moment (((exposed id w l).setCache c).setMag v) = moment (l.setMag v) := by unfold exposed; split <;> rfl

/-- helper -/
theorem Dressed.moment {id : String} {L Q : Layer ℝ} (h : Dressed id L Q) (v : CVec ℝ) (c : LayerLog ℝ) :
    Spec.moment ((Q.setCache c).setMag v) = Spec.moment (L.setMag v) := by
  rcases h with rfl | ⟨w, rfl⟩
  · rfl
  · exact exposed_moment ..

/-- helper -/
theorem Dressed.redress {id : String} {L Q : Layer ℝ} (h : Dressed id L Q) (v m : CVec ℝ) (c : LayerLog ℝ) :
    (if Addressed id ((Q.setCache c).setMag m) then ((Q.setCache c).setMag m).setReservedInteractionField (.ofVec v)
      else (Q.setCache c).setMag m) = ((exposed id v L).setCache c).setMag m := by
  have hi := h.id
  have ha : Addressed id ((Q.setCache c).setMag m) ↔ Addressed id L := by
    unfold Addressed
    rw [show ((Q.setCache c).setMag m).id = Q.id from rfl, hi]
  by_cases hL : Addressed id L
  · rw [if_pos (ha.2 hL)]
    unfold exposed
    rw [if_pos hL]
    rcases h with rfl | ⟨w, rfl⟩
    · rfl
    · unfold exposed
      rw [if_pos hL]
      rfl
  · rw [if_neg (fun x => hL (ha.1 x))]
    have : exposed id v L = L := if_neg hL
    rw [this]
    rcases h with rfl | ⟨w, rfl⟩
    · rfl
    · rw [show exposed id w L = L from if_neg hL]

section
variable (g : GroupInteraction ℝ)

/-- helper: number of layers of the members -/
abbrev sizes (i : Fin g.junctions.length) : Nat := g.junctions[i].layers.length

/-- helper: layers of the members -/
def parts (i : Fin g.junctions.length) (k : Fin (g.sizes i)) : Layer ℝ := g.junctions[i].layers[k]

/-- helper: `s` is the group `g` with the magnetisations `M` -/
structure Holds (M : ∀ i, Fin (g.sizes i) → V) (s : GroupInteraction ℝ) : Prop where
  topId : s.topId = g.topId
  interaction : s.interaction = g.interaction
  positions : s.positions = g.positions
  length : s.junctions.length = g.junctions.length
  member : ∀ i, ∃ (j : Junction ℝ) (Q : Fin (g.sizes i) → Layer ℝ), s.junctions[i.1]? = some j ∧
    (∀ k, Dressed g.topId (g.parts i k) (Q k)) ∧ Carries Q (M i) j.layers

end

variable {g : GroupInteraction ℝ} {c : ℝ} {R : Nat → CVec ℝ} {top : Nat → Nat} {src : Nat → Layer ℝ}

/-- helper -/
theorem named_first {id : String} {j : Junction ℝ} {p : Nat} {l : Layer ℝ} (h1 : j.layers[p]? = some l) (h2 : l.id = id)
    (h3 : ∀ q < p, ∀ l', j.layers[q]? = some l' → l'.id ≠ id) : layerNamed id j = some l := by
  unfold layerNamed
  rw [List.head?_filter, List.find?_eq_some_iff_getElem]
  obtain ⟨hp, e⟩ := List.getElem?_eq_some_iff.1 h1
  refine ⟨by simpa using h2, p, hp, e, fun q hq => ?_⟩
  simpa using h3 q hq _ (List.getElem?_eq_getElem (by omega))

/-- helper -/
theorem parts_of {i : Fin g.junctions.length} {k : Fin (g.sizes i)} {l : Layer ℝ} (h : groupLayer g i.1 k.1 = some l) : g.parts i k = l := by
  unfold groupLayer at h
  rw [List.getElem?_eq_getElem i.2, Option.bind_some] at h
  obtain ⟨h', e⟩ := List.getElem?_eq_some_iff.1 h
  exact e

/-- helper -/
theorem layer_of (i : Fin g.junctions.length) (k : Fin (g.sizes i)) : groupLayer g i.1 k.1 = some (g.parts i k) := by
  unfold groupLayer
  rw [List.getElem?_eq_getElem i.2, Option.bind_some]
  exact List.getElem?_eq_getElem k.2

/-- helper -/
theorem Holds.source {M : ∀ i, Fin (g.sizes i) → V} {s : GroupInteraction ℝ} (h : Holds g M s) (hl : Layout g R top src) {i : Nat}
    (hi : i < g.junctions.length) : ∃ l, memberLayer s i = some l ∧ moment l = moment ((src i).setMag (magAt M i (top i))) := by
  obtain ⟨h1, h2, h3⟩ := hl.source i hi
  obtain ⟨j, Q, e1, e2, e3⟩ := h.member ⟨i, hi⟩
  have ht : top i < g.sizes ⟨i, hi⟩ := by
    unfold groupLayer at h1
    rw [List.getElem?_eq_getElem hi, Option.bind_some] at h1
    exact (List.getElem?_eq_some_iff.1 h1).1
  obtain ⟨d, hd⟩ := e3.2 ⟨top i, ht⟩
  have hsrc : g.parts ⟨i, hi⟩ ⟨top i, ht⟩ = src i := parts_of (i := ⟨i, hi⟩) (k := ⟨top i, ht⟩) h1
  refine ⟨((Q ⟨top i, ht⟩).setCache d).setMag (ofV (M ⟨i, hi⟩ ⟨top i, ht⟩)), ?_, ?_⟩
  · unfold memberLayer
    rw [e1, Option.bind_some]
    refine named_first hd ?_ ?_
    · show (Q ⟨top i, ht⟩).id = _
      rw [(e2 _).id, hsrc, h2, h.topId]
    · intro q hq l' hl'
      obtain ⟨hq', d', rfl⟩ := e3.get hl'
      show (Q ⟨q, hq'⟩).id ≠ _
      rw [(e2 _).id, h.topId]
      exact h3 q hq _ (layer_of ⟨i, hi⟩ ⟨q, hq'⟩)
  · rw [(e2 ⟨top i, ht⟩).moment, hsrc]
    rw [← magAt_eq M ⟨i, hi⟩ ⟨top i, ht⟩]

/-- helper -/
theorem foldl_others (n i : Nat) (F : Nat → CVec ℝ) :
    (((List.range n).filter (· ≠ i)).map F).foldl (· + ·) CVec.zero = vsum ((Finset.range n).erase i) F := by
  induction n with
  | zero => ext <;> simp [vsum, CVec.zero]
  | succ n ih =>
    rw [List.range_succ, List.filter_append, List.map_append, List.foldl_append, ih]
    by_cases h : n = i
    · subst h
      have e : (Finset.range (n + 1)).erase n = (Finset.range n).erase n := by ext x; simp; omega
      rw [e]
      simp
    · have e : (Finset.range (n + 1)).erase i = insert n ((Finset.range n).erase i) := by ext x; simp; omega
      rw [e]
      unfold vsum
      have hn : n ∉ (Finset.range n).erase i := by simp
      simp only [Finset.sum_insert hn]
      ext <;> simp [h, add_comm]

/-- helper -/
theorem Holds.field {M : ∀ i, Fin (g.sizes i) → V} {s : GroupInteraction ℝ} (h : Holds g M s) (hl : Layout g R top src)
    (hf : Pairwise_ g.interaction c) {i : Nat} (hi : i < g.junctions.length) :
    FieldAt s i (groupField c g.junctions.length R top src (magAt M) i) := by
  refine ⟨fun k => smul c (pointDipole (moment ((src k).setMag (magAt M k (top k)))) (R i - R k)), fun k hk hki => ?_, ?_⟩
  · rw [h.length] at hk
    obtain ⟨li, a1, -⟩ := h.source hl hi
    obtain ⟨lk, b1, b2⟩ := h.source hl hk
    refine ⟨R i, R k, li, lk, by rw [h.positions]; exact hl.position i hi, by rw [h.positions]; exact hl.position k hk, a1, b1, ?_⟩
    rw [h.interaction, hf (R i) (R k) li lk (hl.apart i hi k hk (Ne.symm hki)), b2]
  · rw [h.length, foldl_others]
    unfold groupField vsum
    ext <;> simp [smul, Finset.mul_sum]

/-- helper: one step -/
theorem Holds.step {M : ∀ i, Fin (g.sizes i) → V} {s : GroupInteraction ℝ} (h : Holds g M s) (hl : Layout g R top src)
    (hf : Pairwise_ g.interaction c) (hb : Blind g.interaction) (hq : ∀ i k, Quiet (g.parts i k)) {r : Runner}
    (hr : r = .single ∨ r = .multi) (h1 : r = .single → ∀ i, g.sizes i = 1) (t dt : ℝ) : ∃ s', s.step r t dt = .ok () s' ∧
      Holds g (renormAll ((t, M) + dt • wholeSlope (fun i (w : V) k => exposed g.topId (ofV w) (g.parts i k))
        (coupling c R top src) (t, M) dt)).2 s' := by
  set P : ∀ i, V → Fin (g.sizes i) → Layer ℝ := fun i w k => exposed g.topId (ofV w) (g.parts i k) with hP
  have key : ∀ i : Fin g.junctions.length, ∃ (j a x : Junction ℝ), s.junctions[i.1]? = some j ∧
      FieldAt s i.1 (groupField c g.junctions.length R top src (magAt M) i.1) ∧
      j.setLayerReservedInteractionField s.topId (.ofVec (groupField c g.junctions.length R top src (magAt M) i.1)) = .ok () a ∧
      a.runStep r t dt = .ok () x ∧
      Carries (P i (coupling c R top src i (t, M))) (renormalise ((t, M i) + dt • frozenSlope (P i (coupling c R top src i (t, M))) (t, M i) dt)).2
        x.layers := by
    intro i
    obtain ⟨j, Q, e1, e2, e3⟩ := h.member i
    set v := groupField c g.junctions.length R top src (magAt M) i.1 with hv
    have hPv : ∀ k, P i (coupling c R top src i (t, M)) k = exposed g.topId v (g.parts i k) := by
      intro k
      show exposed g.topId (ofV (toV v)) (g.parts i k) = _
      rw [ofV_toV]
    have hset : j.setLayerReservedInteractionField s.topId (.ofVec v) =
        .ok () (mapAddressed s.topId (·.setReservedInteractionField (.ofVec v)) j) := by
      unfold Junction.setLayerReservedInteractionField
      rw [layerSetter_pure, if_pos]
      obtain ⟨l, m1, -⟩ := h.source hl i.2
      unfold memberLayer at m1
      rw [e1, Option.bind_some] at m1
      obtain ⟨l, hl, hid⟩ := (named_iff _ _).1 (Option.isSome_iff_exists.2 ⟨l, m1⟩)
      exact ⟨l, hl, .inl hid⟩
    have hcar : Carries (P i (coupling c R top src i (t, M))) (M i) (mapAddressed s.topId (·.setReservedInteractionField (.ofVec v)) j).layers := by
      refine ⟨by simpa [mapAddressed] using e3.1, fun k => ?_⟩
      obtain ⟨d, hd⟩ := e3.2 k
      refine ⟨d, ?_⟩
      unfold mapAddressed
      rw [List.getElem?_map, hd, Option.map_some, hPv, h.topId]
      exact congrArg some ((e2 k).redress v _ d)
    have hquiet : ∀ k, Quiet (P i (coupling c R top src i (t, M)) k) := by
      intro k
      rw [hPv]
      unfold exposed
      split
      · exact hq i k
      · exact hq i k
    obtain ⟨x, x1, x2⟩ := hcar.step hquiet r (fun q => h1 q i) t dt
    refine ⟨j, _, x, e1, h.field hl hf i.2, hset, x1, ?_⟩
    rcases hr with rfl | rfl <;> exact x2
  choose J A Xs k1 k2 k3 k4 k5 using key
  have hlen := h.length
  have hidx : ∀ i : Fin g.junctions.length, ((List.finRange g.junctions.length).map Xs)[i.1]? = some (Xs i) := by
    intro i
    rw [List.getElem?_map, List.getElem?_eq_getElem (by simp)]
    simp
  have hbs : Blind s.interaction := by rw [h.interaction]; exact hb
  refine ⟨{ s with junctions := (List.finRange g.junctions.length).map Xs }, (C39_simultaneous s _ hbs r t dt).2 ⟨_, rfl, by simp [hlen], ?_⟩, ?_⟩
  · intro i j hj
    have hi : i < g.junctions.length := by rw [← hlen]; exact (List.getElem?_eq_some_iff.1 hj).1
    have := k1 ⟨i, hi⟩
    rw [hj] at this
    cases this
    exact ⟨_, _, _, k2 ⟨i, hi⟩, k3 ⟨i, hi⟩, k4 ⟨i, hi⟩, hidx ⟨i, hi⟩⟩
  · refine ⟨h.topId, h.interaction, h.positions, by simp, fun i => ⟨Xs i, _, hidx i, fun k => .inr ⟨ofV (coupling c R top src i (t, M)), rfl⟩, ?_⟩⟩
    exact k5 i

/-- helper -/
theorem Holds.log {M : ∀ i, Fin (g.sizes i) → V} {s s' : GroupInteraction ℝ} (h : Holds g M s) {t : ℝ} (hs : s.logRow t = .ok () s') :
    Holds g M s' := by
  obtain ⟨js, rfl, e1, e2⟩ := (logRow_iff ..).1 hs
  refine ⟨h.topId, h.interaction, h.positions, e1.trans h.length, fun i => ?_⟩
  obtain ⟨j, Q, q1, q2, q3⟩ := h.member i
  obtain ⟨j', k1, k2⟩ := e2 i.1 j q1
  refine ⟨j', Q, k2, q2, ?_⟩
  have := log_layers j t false
  rw [k1] at this
  change j'.layers = _ at this
  rw [this]
  exact q3

/-- helper: the loop -/
theorem Holds.loop (hl : Layout g R top src) (hf : Pairwise_ g.interaction c) (hb : Blind g.interaction)
    (hq : ∀ i k, Quiet (g.parts i k)) {r : Runner} (hr : r = .single ∨ r = .multi) (h1 : r = .single → ∀ i, g.sizes i = 1) (dt : ℝ)
    (M : ∀ i, Fin (g.sizes i) → V) (we n i : Nat) {s s' : GroupInteraction ℝ}
    (h : Holds g (iterAll (fun i (w : V) k => exposed g.topId (ofV w) (g.parts i k)) (coupling c R top src) dt M i).2 s)
    (hs : GroupInteraction.loop r dt we i n s = .ok () s') :
    Holds g (iterAll (fun i (w : V) k => exposed g.topId (ofV w) (g.parts i k)) (coupling c R top src) dt M (i + n)).2 s' := by
  induction n generalizing i s with
  | zero =>
    unfold GroupInteraction.loop at hs
    simp only [Out.ok, Out.mk.injEq, true_and] at hs
    exact hs ▸ h
  | succ n ih =>
    obtain ⟨m, u, h2, -, h3, h4, h5⟩ := loop_succ.1 hs
    obtain ⟨m', e1, e2⟩ := h.step hl hf hb hq hr h1 (Scalar.lit (i : ℚ) * dt) dt
    have et : (Scalar.lit (i : ℚ) * dt : ℝ) =
        (iterAll (fun i (w : V) k => exposed g.topId (ofV w) (g.parts i k)) (coupling c R top src) dt M i).1 := by
      rw [iterAll_time]; simp
    rw [h2] at e1
    simp only [Out.ok, Out.mk.injEq, true_and] at e1
    subst e1
    rw [et] at e2
    have hu : Holds g (iterAll (fun i (w : V) k => exposed g.topId (ofV w) (g.parts i k)) (coupling c R top src) dt M (i + 1)).2 u := by
      by_cases hd : i % we = 0
      · exact e2.log (h3 hd)
      · rw [h4 hd]; exact e2
    have := ih (i + 1) hu h5
    rwa [show i + (n + 1) = i + 1 + n by omega]

/-! ### Convergence -/

/-- helper: the curves as one curve -/
noncomputable def curve (g : GroupInteraction ℝ) (m : Nat → Nat → ℝ → CVec ℝ) (t : ℝ) : Y g.sizes :=
  (t, fun i k => toV (m i.1 k.1 t))

/-- helper -/
theorem sub_curve (m : Nat → Nat → ℝ → CVec ℝ) (t : ℝ) (i : Fin g.junctions.length) :
    Order.sub i (curve g m t) = joint (g.sizes i) (m i.1) t := rfl

/-- helper -/
theorem vsum_congr {s : Finset Nat} {F G : Nat → CVec ℝ} (h : ∀ k ∈ s, F k = G k) : vsum s F = vsum s G := by
  unfold vsum
  rw [Finset.sum_congr rfl fun k hk => congrArg CVec.x (h k hk), Finset.sum_congr rfl fun k hk => congrArg CVec.y (h k hk),
    Finset.sum_congr rfl fun k hk => congrArg CVec.z (h k hk)]

/-- helper -/
theorem coupling_curve (hl : Layout g R top src) (m : Nat → Nat → ℝ → CVec ℝ) (t : ℝ) (i : Fin g.junctions.length) :
    coupling c R top src i (curve g m t) = toV (groupField c g.junctions.length R top src (fun i k => m i k t) i.1) := by
  unfold Order.coupling groupField
  congr 2
  have : ∀ k ∈ (Finset.range g.junctions.length).erase i.1, magAt (curve g m t).2 k (top k) = m k (top k) t := by
    intro k hk
    have hk : k < g.junctions.length := by simpa using (Finset.mem_erase.1 hk).2
    obtain ⟨h1, -⟩ := hl.source k hk
    unfold groupLayer at h1
    rw [List.getElem?_eq_getElem hk, Option.bind_some] at h1
    exact (magAt_eq (curve g m t).2 ⟨k, hk⟩ ⟨top k, (List.getElem?_eq_some_iff.1 h1).1⟩).trans (ofV_toV _)
  exact vsum_congr fun k hk => by rw [this k hk]

/-- helper -/
theorem start_holds (g : GroupInteraction ℝ) : Holds g (fun i k => toV (g.parts i k).mag) g :=
  ⟨rfl, rfl, rfl, rfl, fun i => ⟨g.junctions[i], g.parts i, List.getElem?_eq_getElem i.2, fun _ => .inl rfl,
    carries_self g.junctions[i].layers⟩⟩

/-- helper -/
theorem curve_deriv {m : Nat → Nat → ℝ → CVec ℝ} {T : ℝ} (h : GroupTrack g c R top src m T) : ∃ lo hi : ℝ, lo < 0 ∧ T < hi ∧
    (∀ t ∈ Set.Ioo lo hi, HasDerivAt (curve g m) (whole (fun i (w : V) k => exposed g.topId (ofV w) (g.parts i k))
      (coupling c R top src) (curve g m t)) t) ∧
    ∀ (i : Fin g.junctions.length) (k : Fin (g.sizes i)), ∀ t ∈ Set.Ioo lo hi, (0 : ℝ) ∈ Set.Ioo lo hi → (m i.1 k.1 t).length = 1 := by
  obtain ⟨lo, hi, hlo, hhi, hm⟩ := h.solves
  refine ⟨lo, hi, hlo, hhi, fun t ht => ?_, fun i k t ht h0 => ?_⟩
  · refine HasDerivAt.prodMk (hasDerivAt_id t) (hasDerivAt_pi.2 fun i => hasDerivAt_pi.2 fun k => ?_)
    have h1 := slope_toV (hm i.1 k.1 g.junctions[i] (g.parts i k) (List.getElem?_eq_getElem i.2) (List.getElem?_eq_getElem k.2) t ht)
    refine h1.congr_deriv ?_
    show toV _ = toV (motion (exposed g.topId (ofV (coupling c R top src i (curve g m t))) (g.parts i k)) t (ofV (toV (m i.1 k.1 t)))
      (low (joint (g.sizes i) (m i.1) t).2 k) (up (joint (g.sizes i) (m i.1) t).2 k))
    rw [coupling_curve h.layout, low_joint, up_joint, ofV_toV, ofV_toV]
  · rw [length_steady (l := fun t => exposed g.topId (groupField c g.junctions.length R top src (fun i k => m i k t) i.1) (g.parts i k))
      (c := m i.1 k.1) (b := lower (m i.1) k.1) (a := upper (g.sizes i) (m i.1) k.1) h0
      (fun s hs => hm i.1 k.1 g.junctions[i] (g.parts i k) (List.getElem?_eq_getElem i.2) (List.getElem?_eq_getElem k.2) s hs) t ht,
      h.start _ _ _ (layer_of i k)]
    exact h.unit _ _ _ (layer_of i k)

/-- helper -/
theorem track_quiet {m : Nat → Nat → ℝ → CVec ℝ} {T : ℝ} (h : GroupTrack g c R top src m T) (i : Fin g.junctions.length)
    (k : Fin (g.sizes i)) : Quiet (g.parts i k) := by
  have := (quiet_iff (g.parts i k)).1 (h.quiet _ _ _ (layer_of i k))
  refine ⟨?_, this.1, by simpa using this.2⟩
  have := h.volume _ _ _ (layer_of i k)
  unfold Layer.Guard
  simpa using this

/-- helper: the states after the steps stay near the solution -/
theorem track_states {m : Nat → Nat → ℝ → CVec ℝ} {T : ℝ} (hT : 0 ≤ T) (h : GroupTrack g c R top src m T) : ∃ C q : ℝ, 0 < q ∧
    ∀ (n : ℕ) (dt : ℝ), 0 ≤ dt → dt ≤ q → n * dt ≤ T → ‖iterAll (fun i (w : V) k => exposed g.topId (ofV w) (g.parts i k))
      (coupling c R top src) dt (fun i k => toV (g.parts i k).mag) n - curve g m (n * dt)‖ ≤ C * dt := by
  obtain ⟨lo, hi, hlo, hhi, hd, hu⟩ := curve_deriv h
  have in_ : ∀ t ∈ Set.Icc 0 T, t ∈ Set.Ioo lo hi := fun t ht => ⟨by linarith [ht.1], by linarith [ht.2]⟩
  obtain ⟨C, q, hq, hC⟩ := ensemble (P := fun i (w : V) k => exposed g.topId (ofV w) (g.parts i k)) (c := coupling c R top src)
    (y := curve g m) hlo hhi hT hd (fun i t _ => coupling_smooth c R top src i _) (fun i t ht => by
      refine lifted_smooth g.topId (g.parts i) _ (fun k => h.smooth _ _ _ (layer_of i k) t ht) fun k => ?_
      show NoPole (g.parts i k) (ofV (toV (m i.1 k.1 t))) (low (joint (g.sizes i) (m i.1) t).2 k) (up (joint (g.sizes i) (m i.1) t).2 k)
      rw [low_joint, up_joint, ofV_toV]
      exact h.noPole i.1 k.1 _ _ (List.getElem?_eq_getElem i.2) (List.getElem?_eq_getElem k.2) t ht)
    (fun t ht i k => by
      show ‖toV (m i.1 k.1 t)‖ = 1
      rw [norm_toV]
      exact hu i k t (in_ t ht) (in_ 0 ⟨le_rfl, hT⟩)) rfl
  refine ⟨C, q, hq, fun n dt h0 hdt hn => ?_⟩
  have key := hC n dt h0 hdt hn
  have e0 : (curve g m 0).2 = fun i k => toV (g.parts i k).mag := by
    funext i k
    show toV (m i.1 k.1 0) = _
    rw [h.start _ _ _ (layer_of i k)]
  rwa [e0] at key

/-- helper -/
theorem track_near {m : Nat → Nat → ℝ → CVec ℝ} {T : ℝ} (hT : 0 ≤ T) (h : GroupTrack g c R top src m T) : ∃ C q : ℝ, 0 < q ∧
    ∀ (n : ℕ) (dt : ℝ), 0 ≤ dt → dt ≤ q → n * dt ≤ T → ∀ s, Holds g (iterAll (fun i (w : V) k => exposed g.topId (ofV w) (g.parts i k))
      (coupling c R top src) dt (fun i k => toV (g.parts i k).mag) n).2 s → GroupNear s m (n * dt) (C * dt) := by
  obtain ⟨C, q, hq, hC⟩ := track_states hT h
  refine ⟨C, q, hq, fun n dt h0 hdt hn s hs => ?_⟩
  have key := hC n dt h0 hdt hn
  set z := iterAll (fun i (w : V) k => exposed g.topId (ofV w) (g.parts i k)) (coupling c R top src) dt
    (fun i k => toV (g.parts i k).mag) n with hz
  intro i k l hl
  unfold groupLayer at hl
  have hi : i < g.junctions.length := by
    rw [← hs.length]
    by_contra hx
    rw [List.getElem?_eq_none (by omega)] at hl
    cases hl
  obtain ⟨j, Q, e1, e2, e3⟩ := hs.member ⟨i, hi⟩
  rw [show s.junctions[i]? = some j from e1, Option.bind_some] at hl
  obtain ⟨hk, d, rfl⟩ := e3.get hl
  show (ofV (z.2 ⟨i, hi⟩ ⟨k, hk⟩) - m i k (n * dt)).length ≤ _
  rw [← norm_toV, toV_sub, toV_ofV]
  refine le_trans ?_ key
  exact ((norm_le_pi_norm (z.2 ⟨i, hi⟩ - (curve g m (n * dt)).2 ⟨i, hi⟩) ⟨k, hk⟩).trans
    (norm_le_pi_norm (z.2 - (curve g m (n * dt)).2) ⟨i, hi⟩)).trans (norm_snd_le (z - curve g m (n * dt)))

/-- helper -/
theorem supplied {f : Dipole.Interaction ℝ} (h : f = Dipole.null ∧ c = 0 ∨ f = Dipole.compute ∧ c = 4 * Real.pi ∨ f = Dipole.noumra ∧ c = 1) :
    Pairwise_ f c ∧ Blind f := by
  rcases h with ⟨rfl, rfl⟩ | ⟨rfl, rfl⟩ | ⟨rfl, rfl⟩
  · refine ⟨fun r1 r2 l1 l2 _ => ?_, C39_blind.1⟩
    unfold Dipole.null
    congr 1
    ext <;> simp [smul]
  · exact ⟨fun r1 r2 l1 l2 h => (Dipole.compute_like r1 r2 l1 l2).1 h, C39_blind.2.1⟩
  · exact ⟨fun r1 r2 l1 l2 h => (Dipole.noumra_like r1 r2 l1 l2).1 h, C39_blind.2.2⟩

/-- helper -/
theorem track_calm {m : Nat → Nat → ℝ → CVec ℝ} {T : ℝ} (h : GroupTrack g c R top src m T) : ∀ j ∈ g.junctions, Stack.Calm j := by
  intro j hj l hl
  obtain ⟨i, hi⟩ := List.getElem?_of_mem hj
  obtain ⟨k, hk⟩ := List.getElem?_of_mem hl
  have e : groupLayer g i k = some l := by unfold groupLayer; rw [hi, Option.bind_some, hk]
  exact ⟨by simpa [Layer.Guard] using h.volume i k l e, h.quiet i k l e⟩

/-- C134. Runs of a group converge to the solution of the coupled equations of motion in which every member feels, at every instant,
the dipole fields of all other members. The members all have one layer, or the last one has several. (For the other groups see
`C40_mixed_refuted`: they do not even advance all layers.) -/
theorem C134_converges (g : GroupInteraction ℝ) (c : ℝ) (R : Nat → CVec ℝ) (top : Nat → Nat) (src : Nat → Layer ℝ)
    (m : Nat → Nat → ℝ → CVec ℝ) (T : ℝ) (h : GroupTrack g c R top src m T)
    (hf : g.interaction = Dipole.null ∧ c = 0 ∨ g.interaction = Dipole.compute ∧ c = 4 * Real.pi ∨ g.interaction = Dipole.noumra ∧ c = 1)
    (hk : ∀ j, g.junctions.getLast? = some j → j.layers.length = 1 → ∀ j' ∈ g.junctions, j'.layers.length = 1) :
    GroupConverges g m T 1 := by
  obtain ⟨hp, hb⟩ := supplied hf
  suffices ∃ C r : ℝ, 0 < r ∧ ∀ (n : Nat) (dt : ℝ), 0 < dt → dt ≤ r → n * dt ≤ T → ∀ (we : Nat) (g' : GroupInteraction ℝ),
      GroupLoopEnds g n dt we g' → GroupNear g' m (n * dt) (C * dt ^ 1) by
    obtain ⟨C, r, hr, hn⟩ := this
    refine ⟨C, r, hr, hn, fun dt total wf hdt hdr h0 hle g' hg => ?_⟩
    obtain ⟨we, N, rms, js, rr, mm, -, hN, -, hs, -, hlast, hloop⟩ := run_inv hg
    have hNf : N = ⌊total / dt⌋₊ := by
      by_cases hb : total / dt < 2 ^ 31
      · rw [Stack.cast_floor (div_nonneg h0 hdt.le) hb] at hN
        exact (Option.some.inj hN).symm
      · exfalso
        unfold Stack.castUnsigned at hN
        have : (Scalar.toInt (total / dt) : Option Int) = none := if_neg fun q => hb (by norm_num; exact q.2)
        rw [this] at hN; cases hN
    rw [← hNf]
    refine hn N dt hdt hdr ?_ we g' ⟨rms, js, (rr, mm), hs, hlast, hloop⟩
    have := Nat.floor_le (div_nonneg h0 hdt.le)
    rw [le_div_iff₀ hdt] at this
    rw [hNf]
    linarith
  by_cases hT : 0 ≤ T
  swap
  · exact ⟨0, 1, one_pos, fun n dt hdt _ hn => absurd (le_trans (by positivity) hn) hT⟩
  obtain ⟨C, q, hq, hC⟩ := track_near hT h
  refine ⟨C, q, hq, ?_⟩
  rintro n dt hdt hdr hn we g' ⟨rms, js, rm, hs, hlast, hloop⟩
  rw [Stack.solvers_completes _ _ (track_calm h)] at hs
  simp only [Out.ok, Out.mk.injEq, Except.ok.injEq] at hs
  obtain ⟨rfl, rfl⟩ := hs
  rw [List.getLast?_map] at hlast
  obtain ⟨j, hj, rfl⟩ := Option.map_eq_some_iff.1 hlast
  rw [pow_one]
  refine hC n dt hdt.le hdr hn g' ?_
  have := Holds.loop h.layout hp hb (track_quiet h) (r := pickRunner j.layers.length .RK4) ?_ ?_ dt (fun i k => toV (g.parts i k).mag) we n 0
    (s := g) (s' := g') (start_holds g) hloop
  · simpa using this
  · by_cases h1 : j.layers.length = 1
    · left; rw [h1]; rfl
    · right; unfold pickRunner; simp [h1]
  · intro e i
    exact hk j hj (pickRunner_single e) _ (List.getElem_mem i.2)

/-- C134. Within the interval the loop ends, so that the bound speaks of actual states. -/
theorem C134_ends (g : GroupInteraction ℝ) (c : ℝ) (R : Nat → CVec ℝ) (top : Nat → Nat) (src : Nat → Layer ℝ)
    (m : Nat → Nat → ℝ → CVec ℝ) (T : ℝ) (h : GroupTrack g c R top src m T)
    (hf : g.interaction = Dipole.null ∧ c = 0 ∨ g.interaction = Dipole.compute ∧ c = 4 * Real.pi ∨ g.interaction = Dipole.noumra ∧ c = 1)
    (hl : g.positions.length = g.junctions.length) (hne : g.junctions ≠ []) (hr : ∀ j ∈ g.junctions, Reachable j) (n : Nat) (dt : ℝ)
    (we : Nat) (hw : we ≠ 0) : ∃ g', GroupLoopEnds g n dt we g' := by
  obtain ⟨hp, hb⟩ := supplied hf
  have hcalm := track_calm h
  have hready : Ready g := by
    refine ⟨hl, hb, fun i k ri rk hik hi hk l l' => ?_, fun j hj => ⟨reachable_nonempty (hr j hj), hcalm j hj, ?_, (Reachable_inv (hr j hj)).1⟩⟩
    · have hi' : i < g.junctions.length := hl ▸ (List.getElem?_eq_some_iff.1 hi).1
      have hk' : k < g.junctions.length := hl ▸ (List.getElem?_eq_some_iff.1 hk).1
      have e1 := h.layout.position i hi'
      have e2 := h.layout.position k hk'
      rw [hi] at e1; rw [hk] at e2
      cases e1; cases e2
      exact ⟨_, hp _ _ l l' (h.layout.apart i hi' k hk' hik)⟩
    · obtain ⟨i, hi⟩ := List.getElem?_of_mem hj
      obtain ⟨h1, h2, -⟩ := h.layout.source i (List.getElem?_eq_some_iff.1 hi).1
      unfold groupLayer at h1
      rw [hi, Option.bind_some] at h1
      exact (named_iff ..).2 ⟨_, List.mem_of_getElem? h1, h2⟩
  obtain ⟨x, hx⟩ : ∃ x, (g.junctions.map fun j => (pickRunner j.layers.length .RK4, SolverMode.RK4)).getLast? = some x :=
    ⟨_, List.getLast?_eq_some_getLast (by simpa using hne)⟩
  obtain ⟨g', hg⟩ := hready.loop x.1 dt we hw n 0
  exact ⟨g', _, _, x, Stack.solvers_completes _ _ hcalm, hx, hg⟩

/-- C134. The coupled equations have a solution on every time interval: the convergence theorem applies to it. -/
theorem C134_exists (g : GroupInteraction ℝ) (c : ℝ) (R : Nat → CVec ℝ) (top : Nat → Nat) (src : Nat → Layer ℝ) (T : ℝ) (hT : 0 ≤ T)
    (hl : Layout g R top src) (hu : ∀ j ∈ g.junctions, ∀ l ∈ j.layers, l.mag.length = 1)
    (hv : ∀ j ∈ g.junctions, ∀ l ∈ j.layers, l.Ms * l.thickness ≠ 0) (hq : ∀ j ∈ g.junctions, ∀ l ∈ j.layers, ¬ Noisy l)
    (hs : ∀ j ∈ g.junctions, ∀ l ∈ j.layers, SmoothDrivers l) (hp : ∀ j ∈ g.junctions, ∀ l ∈ j.layers, Poleless l) :
    ∃ m, GroupTrack g c R top src m T := by
  have at_ : ∀ {i k : Nat} {l : Layer ℝ}, groupLayer g i k = some l → ∃ j ∈ g.junctions, l ∈ j.layers := by
    intro i k l h
    obtain ⟨j, hj, hl⟩ := Option.bind_eq_some_iff.1 h
    exact ⟨j, List.mem_of_getElem? hj, List.mem_of_getElem? hl⟩
  have mem : ∀ (i : Fin g.junctions.length) (k : Fin (g.sizes i)), ∃ j ∈ g.junctions, g.parts i k ∈ j.layers := fun i k => at_ (layer_of i k)
  have hsm : ∀ i k t, Smooth (g.parts i k) t := fun i k t => by
    obtain ⟨j, h1, h2⟩ := mem i k; exact C111_drivers _ (hs j h1 _ h2) t
  have hpo : ∀ i k, Poleless (g.parts i k) := fun i k => by obtain ⟨j, h1, h2⟩ := mem i k; exact hp j h1 _ h2
  set P : ∀ i, V → Fin (g.sizes i) → Layer ℝ := fun i (w : V) k => exposed g.topId (ofV w) (g.parts i k) with hP
  obtain ⟨α, hα0, hα⟩ := clipEach_solution (whole P (Order.coupling c R top src)) T hT (fun z hz => by
    refine whole_smooth (fun i => coupling_smooth c R top src i z) fun i => lifted_smooth g.topId (g.parts i) _ (fun k => hsm i k _) fun k => ?_
    have hb := each_ball hz.2 i
    refine hpo i k _ _ _ ?_ (low_le hb k) (up_le hb k)
    rw [mem_closedBall_zero_iff, pi_norm_le_iff_of_nonneg zero_le_one] at hb
    rw [← norm_toV, toV_ofV]; exact hb k) (fun i k => toV (g.parts i k).mag)
  have h0 : (0 : ℝ) ∈ Set.Ioo (-1) (T + 1) := ⟨by norm_num, by linarith⟩
  have hunit := clipEach_unit h0 hα (fun i k => by
    rw [hα0, norm_toV]; obtain ⟨j, h1, h2⟩ := mem i k; exact hu j h1 _ h2)
  let m : Nat → Nat → ℝ → CVec ℝ := fun i k t => magAt (α t) i k
  have hm : ∀ (i : Fin g.junctions.length) (k : Fin (g.sizes i)) t, m i.1 k.1 t = ofV (α t i k) := fun i k t => magAt_eq (α t) i k
  have hcv : ∀ t, curve g m t = (t, α t) := by
    intro t
    refine Prod.ext rfl (funext fun i => funext fun k => ?_)
    show toV (m i.1 k.1 t) = _
    rw [hm, toV_ofV]
  have hlow : ∀ (i : Fin g.junctions.length) (k : Fin (g.sizes i)) t, lower (m i.1) k.1 t = low (α t i) k := by
    intro i k t
    rw [← low_joint]
    congr 1
    exact congrFun (congrArg Prod.snd (hcv t)) i
  have hup : ∀ (i : Fin g.junctions.length) (k : Fin (g.sizes i)) t, upper (g.sizes i) (m i.1) k.1 t = up (α t i) k := by
    intro i k t
    rw [← up_joint]
    congr 1
    exact congrFun (congrArg Prod.snd (hcv t)) i
  have hball : ∀ t ∈ Set.Ioo (-1) (T + 1), ∀ i, α t i ∈ Metric.closedBall (0 : Fin (g.sizes i) → V) 1 := by
    intro t ht i
    rw [mem_closedBall_zero_iff, pi_norm_le_iff_of_nonneg zero_le_one]
    exact fun k => (hunit t ht i k).le
  have fin_ : ∀ {i k : Nat} {j : Junction ℝ} {l : Layer ℝ}, g.junctions[i]? = some j → j.layers[k]? = some l →
      ∃ (hi : i < g.junctions.length) (hk : k < g.sizes ⟨i, hi⟩), j = g.junctions[i] ∧ l = g.parts ⟨i, hi⟩ ⟨k, hk⟩ := by
    intro i k j l h1 h2
    obtain ⟨hi, rfl⟩ := List.getElem?_eq_some_iff.1 h1
    obtain ⟨hk, rfl⟩ := List.getElem?_eq_some_iff.1 h2
    exact ⟨hi, hk, rfl, rfl⟩
  refine ⟨m, ⟨hl, ⟨-1, T + 1, by norm_num, by linarith, ?_⟩, ?_, fun i k l h => ?_, fun i k l h => ?_, fun i k l h => ?_,
    fun i k l h t _ => ?_, ?_⟩⟩
  · intro i k j l h1 h2 t ht
    obtain ⟨hi, hk, rfl, rfl⟩ := fin_ h1 h2
    have d1 := of_toV (hasDerivAt_pi.1 (hasDerivAt_pi.1 (hα t ht) ⟨i, hi⟩) ⟨k, hk⟩)
    have hc : clipEach (α t) = α t := funext fun i => funext fun k => clip_self (hunit t ht i k).le
    have e1 : ofV ((whole P (Order.coupling c R top src) (t, clipEach (α t))).2 ⟨i, hi⟩ ⟨k, hk⟩) =
        motion (exposed g.topId (groupField c g.junctions.length R top src (fun i k => m i k t) i) (g.parts ⟨i, hi⟩ ⟨k, hk⟩)) t (m i k t)
          (lower (m i) k t) (upper g.junctions[i].layers.length (m i) k t) := by
      have hup' : upper g.junctions[i].layers.length (m i) k t = up (α t ⟨i, hi⟩) ⟨k, hk⟩ := hup ⟨i, hi⟩ ⟨k, hk⟩ t
      rw [hm ⟨i, hi⟩ ⟨k, hk⟩, hlow ⟨i, hi⟩ ⟨k, hk⟩, hup', hc]
      have e2 : ofV (Order.coupling c R top src ⟨i, hi⟩ (t, α t)) = groupField c g.junctions.length R top src (fun i k => m i k t) i := by
        rw [← hcv, coupling_curve hl, ofV_toV]
      rw [← e2]
      rfl
    rw [e1] at d1
    have e2 : m i k = fun s => ofV (α s ⟨i, hi⟩ ⟨k, hk⟩) := funext fun s => hm ⟨i, hi⟩ ⟨k, hk⟩ s
    rw [e2]
    rw [e2] at d1
    exact d1
  · intro i k l h
    obtain ⟨j, h1, h2⟩ := Option.bind_eq_some_iff.1 h
    obtain ⟨hi, hk, rfl, rfl⟩ := fin_ h1 h2
    rw [hm ⟨i, hi⟩ ⟨k, hk⟩, hα0, ofV_toV]
  · obtain ⟨j, h1, h2⟩ := at_ h; exact hu j h1 l h2
  · obtain ⟨j, h1, h2⟩ := at_ h; exact hv j h1 l h2
  · obtain ⟨j, h1, h2⟩ := at_ h; exact hq j h1 l h2
  · obtain ⟨j, h1, h2⟩ := at_ h; exact C111_drivers _ (hs j h1 l h2) t
  · intro i k j l h1 h2 t ht
    obtain ⟨hi, hk, rfl, rfl⟩ := fin_ h1 h2
    have ht' : t ∈ Set.Ioo (-1) (T + 1) := ⟨by linarith [ht.1], by linarith [ht.2]⟩
    have hup' : upper g.junctions[i].layers.length (m i) k t = up (α t ⟨i, hi⟩) ⟨k, hk⟩ := hup ⟨i, hi⟩ ⟨k, hk⟩ t
    rw [hm ⟨i, hi⟩ ⟨k, hk⟩, hlow ⟨i, hi⟩ ⟨k, hk⟩, hup']
    refine hpo ⟨i, hi⟩ ⟨k, hk⟩ _ _ _ ?_ (low_le (hball t ht' _) _) (up_le (hball t ht' _) _)
    rw [← norm_toV, toV_ofV, hunit t ht']

/-- C134. The solution is unique. -/
theorem C134_unique (g : GroupInteraction ℝ) (c : ℝ) (R : Nat → CVec ℝ) (top : Nat → Nat) (src : Nat → Layer ℝ)
    (m m' : Nat → Nat → ℝ → CVec ℝ) (T : ℝ) (h : GroupTrack g c R top src m T) (h' : GroupTrack g c R top src m' T) (i k : Nat)
    (l : Layer ℝ) (hl : groupLayer g i k = some l) (t : ℝ) (ht : t ∈ Set.Icc 0 T) : m i k t = m' i k t := by
  have hT : 0 ≤ T := ht.1.trans ht.2
  obtain ⟨C, q, hq, hC⟩ := track_states hT h
  obtain ⟨C', q', hq', hC'⟩ := track_states hT h'
  have e := congrArg Prod.snd (limits_agree (z := fun dt n => iterAll (fun i (w : V) k => exposed g.topId (ofV w) (g.parts i k))
    (Order.coupling c R top src) dt (fun i k => toV (g.parts i k).mag) n) hq hq' hC hC' ht.1 ht.2)
  obtain ⟨j, h1, h2⟩ := Option.bind_eq_some_iff.1 hl
  obtain ⟨hi, rfl⟩ := List.getElem?_eq_some_iff.1 h1
  have hk := (List.getElem?_eq_some_iff.1 h2).1
  have := congrFun (congrFun e ⟨i, hi⟩) ⟨k, hk⟩
  rw [← ofV_toV (m i k t), ← ofV_toV (m' i k t)]
  exact congrArg ofV this

/-! ### A case -/

/-- helper -/
theorem quiet_smooth : SmoothDrivers quietLayer := by
  constructor <;> simp [quietLayer, plainOf, Layer.demo, SmoothKind, SmoothAxes, ScalarDriver.null, ScalarDriver.constantDriver,
    AxialDriver.null, AxialDriver.ofVec]

/-- Two single-layer junctions one metre apart: the layout, the
solution, its approximation by the loop, and the loop itself. -/
example : ∃ m, GroupTrack (twoOf Dipole.compute ⟨0, 0, 0⟩ ⟨1, 0, 0⟩ Stack.oneJ Stack.oneJ) (4 * Real.pi)
      (fun i => if i = 0 then ⟨0, 0, 0⟩ else ⟨1, 0, 0⟩) (fun _ => 0) (fun _ => quietLayer) m 1 ∧
    GroupConverges (twoOf Dipole.compute ⟨0, 0, 0⟩ ⟨1, 0, 0⟩ Stack.oneJ Stack.oneJ) m 1 1 ∧
    ∃ g', GroupLoopEnds (twoOf Dipole.compute ⟨0, 0, 0⟩ ⟨1, 0, 0⟩ Stack.oneJ Stack.oneJ) 10 (1 / 10) 2 g' := by
  set g := twoOf Dipole.compute ⟨0, 0, 0⟩ ⟨1, 0, 0⟩ Stack.oneJ Stack.oneJ with hg
  have hj : ∀ j ∈ g.junctions, j = Stack.oneJ := by intro j hj; simpa [hg, twoOf] using hj
  have hlay : ∀ j ∈ g.junctions, ∀ l ∈ j.layers, l = quietLayer := by
    intro j h l hl
    rw [hj j h] at hl
    simpa [Stack.oneJ] using hl
  have hap : Apart (⟨0, 0, 0⟩ : CVec ℝ) ⟨1, 0, 0⟩ := by
    unfold Apart away
    norm_num
  have hl : Layout g (fun i => if i = 0 then ⟨0, 0, 0⟩ else ⟨1, 0, 0⟩) (fun _ => 0) (fun _ => quietLayer) := by
    refine ⟨fun i hi => ?_, fun i hi k hk hik => ?_, fun i hi => ⟨?_, rfl, fun p hp => absurd hp (by omega)⟩⟩
    all_goals have hi : i < 2 := hi
    · interval_cases i <;> rfl
    · have hk : k < 2 := hk
      interval_cases i <;> interval_cases k
      · exact absurd rfl hik
      · exact hap
      · exact apart_symm hap
      · exact absurd rfl hik
    · interval_cases i <;> rfl
  obtain ⟨m, hm⟩ := C134_exists g (4 * Real.pi) _ _ _ 1 zero_le_one hl
    (fun j h l hh => by rw [hlay j h l hh]; simp [quietLayer, plainOf, Layer.demo, CVec.length_eq, CVec.normSq])
    (fun j h l hh => by rw [hlay j h l hh]; simp [quietLayer, plainOf, Layer.demo])
    (fun j h l hh => by rw [hlay j h l hh]; simp [quietLayer, plainOf, Layer.demo, Noisy])
    (fun j h l hh => by rw [hlay j h l hh]; exact quiet_smooth)
    (fun j h l hh => by rw [hlay j h l hh]; intro _ _ _ _ _ _ hs; simp [quietLayer, plainOf] at hs)
  have hf : g.interaction = Dipole.compute ∧ (4 * Real.pi : ℝ) = 4 * Real.pi := ⟨rfl, rfl⟩
  refine ⟨m, hm, C134_converges g _ _ _ _ m 1 hm (.inr (.inl hf)) (fun j _ _ j' h => by rw [hj j' h]; rfl),
    C134_ends g _ _ _ _ m 1 hm (.inr (.inl hf)) rfl (by simp [hg, twoOf]) (fun j h => by rw [hj j h]; exact Stack.oneJ_reachable) 10 _ 2 (by norm_num)⟩

end GroupInteraction
