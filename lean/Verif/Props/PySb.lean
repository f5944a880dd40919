import Verif.Lemmas.PySb

/-!
# Claims C55, C78-C80: bookkeeping and energy of the Smit-Beljers solver
-/

set_option linter.unusedSectionVars false

namespace SB
open Scalar Matrix

/-! ## C55: what the constructor accepts -/

section accept
variable {T : Type} [Scalar T]

private theorem ids_perm {ids : List Int} {n : Nat} (hn : ids.length = n) :
    (ids.all (((List.range n).map Int.ofNat).contains ·) &&
      ((List.range n).map Int.ofNat).all (ids.contains ·)) = true ↔
    ids.Perm ((List.range n).map Int.ofNat) := by
  set ideal := (List.range n).map Int.ofNat with hi
  have hnd : ideal.Nodup := (List.nodup_range).map (fun a b h => by simpa using h)
  have hl : ideal.length = n := by simp [hi]
  simp only [Bool.and_eq_true, List.all_eq_true, List.contains_iff_mem]
  constructor
  · rintro ⟨-, h2⟩
    have hsub : ideal ⊆ ids := fun a ha => h2 a ha
    exact ((hnd.subperm hsub).perm_of_length_le (by omega)).symm
  · intro h
    exact ⟨fun a ha => h.subset ha, fun a ha => h.symm.subset ha⟩

/-- C55: the constructor accepts exactly when every coupling list that is given has one entry per gap and the layer ids are
0, …, n-1 in some order; otherwise it raises `ValueError`. -/
theorem C55_accept (layers : List (Layer T)) (J1 J2 : List T) (H : Option (VectorObj T)) (ilD : Option (List (VectorObj T)))
    (Nd : Option (List (VectorObj T × VectorObj T × VectorObj T))) :
    ((∃ s, Solver.mk' layers J1 J2 H ilD Nd = .ok s) ↔
      (J1.length + 1 = layers.length ∧ J2.length + 1 = layers.length ∧ (∀ d ∈ ilD, d.length + 1 = layers.length) ∧
        (∀ d ∈ Nd, d.length + 1 = layers.length) ∧
        (layers.map (·.id)).Perm ((List.range layers.length).map Int.ofNat))) ∧
    ((¬ ∃ s, Solver.mk' layers J1 J2 H ilD Nd = .ok s) → Solver.mk' layers J1 J2 H ilD Nd = .error .valueError) := by
  have key := ids_perm (ids := layers.map (·.id)) (n := layers.length) (by simp)
  unfold Solver.mk'
  dsimp only
  split_ifs with h1 h2 h3 h4 h5
  · exact ⟨⟨fun ⟨s, h⟩ => by simp at h, fun h => by omega⟩, fun _ => rfl⟩
  · exact ⟨⟨fun ⟨s, h⟩ => by simp at h, fun h => by omega⟩, fun _ => rfl⟩
  · refine ⟨⟨fun ⟨s, h⟩ => by simp at h, fun h => ?_⟩, fun _ => rfl⟩
    cases ilD with
    | none => simp at h3; omega
    | some d => exact absurd (h.2.2.1 d rfl).symm h3
  · refine ⟨⟨fun ⟨s, h⟩ => by simp at h, fun h => ?_⟩, fun _ => rfl⟩
    cases Nd with
    | none => simp at h4
    | some d => exact absurd (h.2.2.2.1 d rfl).symm (by simpa using h4)
  · refine ⟨⟨fun _ => ⟨by omega, by omega, ?_, ?_, key.mp h5⟩, fun _ => ⟨_, rfl⟩⟩, fun h => absurd ⟨_, rfl⟩ h⟩
    · intro d hd
      cases hd
      simp at h3; omega
    · intro d hd
      cases hd
      simp at h4; omega
  · refine ⟨⟨fun ⟨s, h⟩ => by simp at h, fun h => absurd (key.mpr h.2.2.2.2) h5⟩, fun _ => rfl⟩

/-- C55: a layer with an id above 9 cannot be made; every other layer can. -/
theorem C55_ten (id : Int) (t : T) (Kv : VectorObj T) (Ks Ms : T) (Hdmi : Option (VectorObj T)) (N : VectorObj T)
    (dyn : Option (Dyn T)) :
    (id ≤ 9 → ∃ l, Layer.mk' id t Kv Ks Ms Hdmi N dyn = .ok l ∧ l.id = id ∧ l.thickness = t ∧ l.Kv = Kv ∧ l.Ks = Ks ∧ l.Ms = Ms) ∧
    (9 < id → Layer.mk' id t Kv Ks Ms Hdmi N dyn = .error .valueError) := by
  unfold Layer.mk'
  constructor
  · intro h
    rw [if_neg (by omega)]
    exact ⟨_, rfl, rfl, rfl, rfl, rfl, rfl⟩
  · intro h
    rw [if_pos h]

end accept

/-- What an accepted solver holds: the lists as given. -/
theorem mk_fields {layers : List (Layer ℝ)} {J1 J2 : List ℝ} {H : Option (VectorObj ℝ)} {ilD : Option (List (VectorObj ℝ))}
    {Nd : Option (List (VectorObj ℝ × VectorObj ℝ × VectorObj ℝ))} {s : Solver ℝ}
    (h : Solver.mk' layers J1 J2 H ilD Nd = .ok s) :
    s.layers = layers ∧ s.J1 = J1 ∧ s.J2 = J2 ∧ s.H = H ∧
      (s.layers.map (·.id)).Perm ((List.range layers.length).map Int.ofNat) ∧ s.Sized ∧
      (∀ d, ilD = some d → s.ilD = d.map (·.getCartesian)) ∧ (Nd = none → s.dipole = none) := by
  have hp := ((C55_accept layers J1 J2 H ilD Nd).1.mp ⟨s, h⟩).2.2.2.2
  unfold Solver.mk' at h
  dsimp only at h
  split_ifs at h with h1 h2 h3 h4 h5
  injection h with h
  subst h
  refine ⟨rfl, rfl, rfl, rfl, hp, ⟨by simpa using h1, by simpa using h2, ?_⟩, fun d hd => by subst hd; rfl, fun hn => by subst hn; rfl⟩
  simpa using h3

/-- C55: the neighbour references: the layer above and below, with the constant of the gap between; nothing outside the stack. -/
theorem C55_references (s : Solver ℝ) (J : List ℝ) (hJ : J.length + 1 = s.layers.length) (i : Nat) (hi : i < s.layers.length) :
    ∃ up down jup jdown, s.references i J = .ok (up, down, jup, jdown) ∧
      (i = 0 → up = none ∧ jup = 0) ∧ (i + 1 = s.layers.length → down = none ∧ jdown = 0) ∧
      (∀ k, k + 1 = i → up = s.layers[k]? ∧ J[k]? = some jup) ∧
      (i + 1 < s.layers.length → down = s.layers[i + 1]? ∧ J[i]? = some jdown) := by
  unfold Solver.references
  by_cases h1 : s.layers.length = 1
  · rw [if_pos h1]
    refine ⟨none, none, _, _, rfl, fun _ => ⟨rfl, by simp⟩, fun _ => ⟨rfl, by simp⟩, fun k hk => by omega, fun h => by omega⟩
  rw [if_neg h1]
  by_cases h0 : i = 0
  · subst h0
    have hl : 0 + 1 < s.layers.length := by omega
    have hj : 0 < J.length := by omega
    rw [if_pos rfl, List.getElem?_eq_getElem hl, List.getElem?_eq_getElem hj]
    exact ⟨none, some s.layers[0 + 1], _, J[0], rfl, fun _ => ⟨rfl, by simp⟩, fun h => by omega, fun k hk => by omega,
      fun _ => ⟨rfl, rfl⟩⟩
  rw [if_neg h0]
  have hu : i - 1 < s.layers.length := by omega
  have hju : i - 1 < J.length := by omega
  by_cases hl : i = s.layers.length - 1
  · have hlast : J.getLast? = some J[i - 1] := by
      rw [List.getLast?_eq_getElem?, List.getElem?_eq_getElem (by omega)]
      congr 2; omega
    rw [if_pos hl, List.getElem?_eq_getElem hu, hlast]
    refine ⟨some s.layers[i - 1], none, J[i - 1], _, rfl, fun h => absurd h h0, fun _ => ⟨rfl, by simp⟩, fun k hk => ?_,
      fun h => by omega⟩
    have : k = i - 1 := by omega
    subst this
    exact ⟨(List.getElem?_eq_getElem hu).symm, List.getElem?_eq_getElem hju⟩
  · rw [if_neg hl]
    have hd : i + 1 < s.layers.length := by omega
    have hjd : i < J.length := by omega
    rw [List.getElem?_eq_getElem hu, List.getElem?_eq_getElem hd, List.getElem?_eq_getElem hju, List.getElem?_eq_getElem hjd]
    refine ⟨some s.layers[i - 1], some s.layers[i + 1], J[i - 1], J[i], rfl, fun h => absurd h h0, fun h => by omega, fun k hk => ?_,
      fun _ => ⟨rfl, rfl⟩⟩
    have : k = i - 1 := by omega
    subst this
    exact ⟨(List.getElem?_eq_getElem hu).symm, List.getElem?_eq_getElem hju⟩

/-- C55: the references are mutual: what a layer sees below is the next layer, what that one sees above is this layer, and both see
the same constant. -/
theorem C55_mutual (s : Solver ℝ) (J : List ℝ) (hJ : J.length + 1 = s.layers.length) (i : Nat) (hi : i + 1 < s.layers.length) :
    ∃ up down jup j down' jdown' l l', s.layers[i]? = some l ∧ s.layers[i + 1]? = some l' ∧ down = some l' ∧
      s.references i J = .ok (up, down, jup, j) ∧ s.references (i + 1) J = .ok (some l, down', j, jdown') := by
  obtain ⟨u, d, ju, jd, he, -, -, -, h4⟩ := C55_references s J hJ i (by omega)
  obtain ⟨u', d', ju', jd', he', -, -, h3', -⟩ := C55_references s J hJ (i + 1) hi
  obtain ⟨hd, hj⟩ := h4 hi
  obtain ⟨hu', hj'⟩ := h3' i rfl
  have hij : jd = ju' := by rw [hj] at hj'; injection hj'
  have e1 := List.getElem?_eq_getElem (l := s.layers) (i := i) (by omega)
  have e2 := List.getElem?_eq_getElem (l := s.layers) hi
  refine ⟨u, d, ju, jd, d', jd', s.layers[i], s.layers[i + 1], e1, e2, by rw [hd, e2], he, ?_⟩
  rw [he', hij, hu', e1]

/-! ## C78: the energy -/

/-- C78: the energy of an accepted solver: thickness times density summed over the layers, plus once per gap the exchange and, if
tensors are given, the dipolar coupling. -/
theorem C78_energy (s : Solver ℝ) (h : s.Sized) (hd : ∀ d ∈ s.dipole, s.layers.length = d.length + 1) (H : CVec ℝ) (x : Coord → ℝ) :
    s.energy H x =
      (s.layers.map fun l => l.thickness * Spec.density mu0 l.Ms l.Ks l.Kv.mag l.Kv.phi (vec l.Ndemag) (vec H) (vec l.Hdmi)
        (Spec.unit (x (.theta l.id)) (x (.phi l.id)))).sum +
      ∑ k ∈ Finset.range (s.layers.length - 1),
        (Spec.coupling (s.J1.getD k 0) (s.J2.getD k 0) (vec (s.ilD.getD k ⟨0, 0, 0⟩))
            (Spec.unit (x (.theta (s.layerAt k).id)) (x (.phi (s.layerAt k).id)))
            (Spec.unit (x (.theta (s.layerAt (k + 1)).id)) (x (.phi (s.layerAt (k + 1)).id))) +
          match s.dipole with
          | none => 0
          | some A => Spec.dipoleCoupling mu0 (s.layerAt k).Ms (s.layerAt (k + 1)).Ms (s.layerAt k).thickness
              (s.layerAt (k + 1)).thickness ((A.getD k ⟨⟨0, 0, 0⟩, ⟨0, 0, 0⟩, ⟨0, 0, 0⟩⟩).mat)
              (Spec.unit (x (.theta (s.layerAt k).id)) (x (.phi (s.layerAt k).id)))
              (Spec.unit (x (.theta (s.layerAt (k + 1)).id)) (x (.phi (s.layerAt (k + 1)).id)))) := by
  rw [energy_sum s h]
  congr 1
  · rw [← Fin.sum_univ_eq_sum_range (fun k => (s.layerAt k).noInteraction H x * (s.layerAt k).thickness)]
    rw [← List.sum_ofFn]
    congr 1
    apply List.ext_getElem
    · simp
    · intro i h1 h2
      have hi : i < s.layers.length := by simpa using h1
      simp only [List.getElem_ofFn, List.getElem_map, layerAt_eq, List.getD_eq_getElem?_getD, List.getElem?_eq_getElem hi,
        Option.getD_some, density_eq]
      ring
  · refine Finset.sum_congr rfl fun k hk => ?_
    have hk := Finset.mem_range.mp hk
    unfold Solver.gap gapE
    rw [vec_m, vec_m]
    congr 1
    cases hdip : s.dipole with
    | none => simp [dipAt]
    | some A =>
      have hl := hd A (by rw [hdip]; rfl)
      have hkA : k < A.length := by omega
      simp [dipAt, List.getElem?_eq_getElem hkA]

/-! ## C79: a layer's own energy gives the same torque as the system's -/

private theorem sum_two (N i : Nat) (d : Nat → ℝ) (hd : ∀ k < N, k ≠ i → k + 1 ≠ i → d k = 0) :
    ∑ k ∈ Finset.range N, d k = (if i < N then d i else 0) + (if 0 < i ∧ i - 1 < N then d (i - 1) else 0) := by
  have : ∀ k ∈ Finset.range N, d k = (if k = i then d k else 0) + (if k + 1 = i then d k else 0) := by
    intro k hk
    have hk := Finset.mem_range.mp hk
    by_cases h1 : k = i
    · subst h1; simp
    · by_cases h2 : k + 1 = i
      · simp [h1, h2]
      · simp [h1, h2, hd k hk h1 h2]
  rw [Finset.sum_congr rfl this, Finset.sum_add_distrib]
  congr 1
  · rw [Finset.sum_ite_eq' (Finset.range N) i d]; simp
  · rcases Nat.eq_zero_or_pos i with h | h
    · subst h; simp
    · have e : ∀ k, (k + 1 = i) ↔ (k = i - 1) := fun k => by omega
      simp only [e]
      rw [Finset.sum_ite_eq' (Finset.range N) (i - 1) d]
      simp [h]

private theorem ids_ne {s : Solver ℝ} {n : Nat} (hp : (s.layers.map (·.id)).Perm ((List.range n).map Int.ofNat))
    {i k : Nat} (hi : i < s.layers.length) (hk : k < s.layers.length) (hne : k ≠ i) : (s.layerAt k).id ≠ (s.layerAt i).id := by
  have hnd : (s.layers.map (·.id)).Nodup := hp.nodup_iff.mpr ((List.nodup_range).map (fun a b h => by simpa using h))
  intro he
  apply hne
  have h1 : (s.layerAt k).id = (s.layers.map (·.id))[k]'(by simpa using hk) := by
    simp [layerAt_eq, List.getD_eq_getElem?_getD, List.getElem?_eq_getElem hk]
  have h2 : (s.layerAt i).id = (s.layers.map (·.id))[i]'(by simpa using hi) := by
    simp [layerAt_eq, List.getD_eq_getElem?_getD, List.getElem?_eq_getElem hi]
  rw [h1, h2] at he
  exact (List.Nodup.getElem_inj_iff hnd).mp he

private theorem m_off {l : Layer ℝ} {x : Coord → ℝ} {c : Coord} {id : Int} (hc : c = .theta id ∨ c = .phi id) (hne : l.id ≠ id) (t : ℝ) :
    l.m (Function.update x c t) = l.m x := by
  have h1 : (Function.update x c t) (.theta l.id) = x (.theta l.id) := Function.update_of_ne (by
    rcases hc with rfl | rfl <;> simp [hne]) _ _
  have h2 : (Function.update x c t) (.phi l.id) = x (.phi l.id) := Function.update_of_ne (by
    rcases hc with rfl | rfl <;> simp [hne]) _ _
  unfold Layer.m; rw [h1, h2]

private theorem own_off {l : Layer ℝ} {H : CVec ℝ} {x y : Coord → ℝ} (h : l.m y = l.m x) : l.noInteraction H y = l.noInteraction H x := by
  unfold Layer.noInteraction; rw [h]

/-- C79: without antisymmetric exchange and dipoles, the derivative of the energy attributed to one layer (with the neighbours and
constants the solver refers it to) in that layer's angles is the derivative of the energy of the whole system: both
formulations have the same equilibria. -/
theorem C79_own (s : Solver ℝ) (hs : s.Sized) (hp : (s.layers.map (·.id)).Perm ((List.range s.layers.length).map Int.ofNat))
    (hD : ∀ d ∈ s.ilD, d = ⟨0, 0, 0⟩) (hN : s.dipole = none) (H : CVec ℝ) (x : Coord → ℝ) (i : Nat) (hi : i < s.layers.length)
    {up down up' down' : Option (Layer ℝ)} {a b a' b' : ℝ}
    (h1 : s.references i s.J1 = .ok (up, down, a, b)) (h2 : s.references i s.J2 = .ok (up', down', a', b'))
    (c : Coord) (hc : c = .theta s.layers[i].id ∨ c = .phi s.layers[i].id) :
    pd (s.energy H) c x = pd (fun y => s.layers[i].totalEnergy H a b a' b' up down y) c x := by
  have hli : s.layerAt i = s.layers[i] := by
    simp [layerAt_eq, List.getD_eq_getElem?_getD, List.getElem?_eq_getElem hi]
  -- the difference of the two energies does not depend on the coordinate
  have key : ∀ t : ℝ, s.energy H (Function.update x c t) =
      s.layers[i].totalEnergy H a b a' b' up down (Function.update x c t) +
        (s.energy H x - s.layers[i].totalEnergy H a b a' b' up down x) := by
    intro t
    set y := Function.update x c t with hy
    have hoff : ∀ k < s.layers.length, k ≠ i → (s.layerAt k).m y = (s.layerAt k).m x := fun k hk hne =>
      m_off hc (by rw [← hli]; exact ids_ne hp hi hk hne) t
    have hown : ∑ k ∈ Finset.range s.layers.length, (s.layerAt k).noInteraction H y * (s.layerAt k).thickness -
        ∑ k ∈ Finset.range s.layers.length, (s.layerAt k).noInteraction H x * (s.layerAt k).thickness =
        (s.layerAt i).noInteraction H y * (s.layerAt i).thickness - (s.layerAt i).noInteraction H x * (s.layerAt i).thickness := by
      rw [← Finset.sum_sub_distrib]
      rw [Finset.sum_eq_single i]
      · intro k hk hne
        rw [own_off (hoff k (Finset.mem_range.mp hk) hne), sub_self]
      · intro h; exact absurd (Finset.mem_range.mpr hi) h
    have hgap : ∑ k ∈ Finset.range (s.layers.length - 1), s.gap k y - ∑ k ∈ Finset.range (s.layers.length - 1), s.gap k x =
        (if i < s.layers.length - 1 then s.gap i y - s.gap i x else 0) +
          (if 0 < i ∧ i - 1 < s.layers.length - 1 then s.gap (i - 1) y - s.gap (i - 1) x else 0) := by
      rw [← Finset.sum_sub_distrib]
      apply sum_two (s.layers.length - 1) i (fun k => s.gap k y - s.gap k x)
      intro k hk h1 h2
      show s.gap k y - s.gap k x = 0
      unfold Solver.gap gapE
      rw [hoff k (by omega) h1, hoff (k + 1) (by omega) h2, sub_self]
    have hgapv : ∀ k < s.layers.length - 1, ∀ z, s.gap k z =
        -(s.J1.getD k 0 * ((s.layerAt k).m z).dot ((s.layerAt (k + 1)).m z)) -
          s.J2.getD k 0 * (((s.layerAt k).m z).dot ((s.layerAt (k + 1)).m z)) ^ 2 := by
      intro k hk z
      have hkD : k < s.ilD.length := by have := hs.d; omega
      have hz : s.ilD.getD k ⟨0, 0, 0⟩ = ⟨0, 0, 0⟩ := by
        rw [List.getD_eq_getElem?_getD, List.getElem?_eq_getElem hkD, Option.getD_some]
        exact hD _ (List.getElem_mem hkD)
      unfold Solver.gap gapE Spec.coupling
      rw [hz, hN, vec_dot]
      simp [dipAt, vec, dotProduct, Fin.sum_univ_three]
    obtain ⟨u1, d1, j1, j1', e1, p1, p2, p3, p4⟩ := C55_references s s.J1 (by have := hs.j1; omega) i hi
    obtain ⟨u2, d2, j2, j2', e2, q1, q2, q3, q4⟩ := C55_references s s.J2 (by have := hs.j2; omega) i hi
    rw [h1] at e1; rw [h2] at e2
    injection e1 with e1; injection e2 with e2
    obtain ⟨rfl, rfl, rfl, rfl⟩ : up = u1 ∧ down = d1 ∧ a = j1 ∧ b = j1' := by simpa using e1
    obtain ⟨rfl, rfl, rfl, rfl⟩ : up' = u2 ∧ down' = d2 ∧ a' = j2 ∧ b' = j2' := by simpa using e2
    have hE : s.energy H y - s.energy H x = ((s.layerAt i).noInteraction H y * (s.layerAt i).thickness -
        (s.layerAt i).noInteraction H x * (s.layerAt i).thickness) +
        ((if i < s.layers.length - 1 then s.gap i y - s.gap i x else 0) +
          (if 0 < i ∧ i - 1 < s.layers.length - 1 then s.gap (i - 1) y - s.gap (i - 1) x else 0)) := by
      rw [energy_sum s hs, energy_sum s hs, ← hown, ← hgap]; ring
    have hcomm : ∀ u v : CVec ℝ, u.dot v = v.dot u := fun u v => by simp [CVec.dot]; ring
    -- the terms of the neighbour above
    have htop : ∀ z, (match (motive := Option (Layer ℝ) → ℝ) up with
        | none => 0
        | some o => -a * (s.layers[i].m z).dot (o.m z) - a' * ((s.layers[i].m z).dot (o.m z)) ^ 2) =
        if 0 < i ∧ i - 1 < s.layers.length - 1 then s.gap (i - 1) z else 0 := by
      intro z
      rcases Nat.eq_zero_or_pos i with h0 | h0
      · rw [(p1 h0).1, if_neg (by omega)]
      · obtain ⟨hu, hj⟩ := p3 (i - 1) (by omega)
        obtain ⟨-, hj2⟩ := q3 (i - 1) (by omega)
        rw [if_pos ⟨h0, by omega⟩, hgapv _ (by omega), hu, List.getElem?_eq_getElem (by omega)]
        have hl1 : s.layerAt (i - 1) = s.layers[i - 1] := by
          simp [layerAt_eq, List.getD_eq_getElem?_getD, List.getElem?_eq_getElem (show i - 1 < s.layers.length by omega)]
        have hi1 : i - 1 + 1 = i := by omega
        rw [hl1, hi1, hli, List.getD_eq_getElem?_getD, hj, List.getD_eq_getElem?_getD, hj2]
        simp only [Option.getD_some]
        rw [hcomm]; ring
    have hbot : ∀ z, (match (motive := Option (Layer ℝ) → ℝ) down with
        | none => 0
        | some o => -b * (s.layers[i].m z).dot (o.m z) - b' * ((s.layers[i].m z).dot (o.m z)) ^ 2) =
        if i < s.layers.length - 1 then s.gap i z else 0 := by
      intro z
      by_cases h0 : i < s.layers.length - 1
      · obtain ⟨hu, hj⟩ := p4 (by omega)
        obtain ⟨-, hj2⟩ := q4 (by omega)
        rw [if_pos h0, hgapv _ h0, hu, List.getElem?_eq_getElem (by omega)]
        have hl1 : s.layerAt (i + 1) = s.layers[i + 1] := by
          simp [layerAt_eq, List.getD_eq_getElem?_getD, List.getElem?_eq_getElem (show i + 1 < s.layers.length by omega)]
        rw [hl1, hli, List.getD_eq_getElem?_getD, hj, List.getD_eq_getElem?_getD, hj2]
        simp only [Option.getD_some]
        ring
      · rw [(p2 (by omega)).1, if_neg h0]
    have htot : ∀ z, s.layers[i].totalEnergy H a b a' b' up down z =
        s.layers[i].noInteraction H z * s.layers[i].thickness + (if 0 < i ∧ i - 1 < s.layers.length - 1 then s.gap (i - 1) z else 0) +
          (if i < s.layers.length - 1 then s.gap i z else 0) := by
      intro z
      rw [← htop z, ← hbot z]
      unfold Layer.totalEnergy
      cases up <;> cases down <;> simp only [powi_real, ofNat_real, Nat.cast_zero]
    rw [htot y, htot x]
    rw [hli] at hE
    split_ifs at hE ⊢ <;> linarith
  unfold pd
  simp only [key]
  rw [deriv_add_const]

/-! ## C80: symmetries of the energy -/

/-- Every magnetisation reversed. -/
noncomputable def flip (x : Coord → ℝ) : Coord → ℝ
  | .theta i => Real.pi - x (.theta i)
  | .phi i => x (.phi i) + Real.pi

/-- Every magnetisation turned about z. -/
def turned (δ : ℝ) (x : Coord → ℝ) : Coord → ℝ
  | .theta i => x (.theta i)
  | .phi i => x (.phi i) + δ

private theorem unit_flip (l : Layer ℝ) (x : Coord → ℝ) : vec (l.m (flip x)) = -vec (l.m x) := by
  rw [vec_m, vec_m]
  ext i
  fin_cases i <;> simp [Spec.unit, flip, Real.sin_pi_sub, Real.cos_pi_sub, Real.cos_add_pi, Real.sin_add_pi]

/-- C80: reversing the field and every magnetisation leaves the energy as it is (in layers without a constant internal field). -/
theorem C80_reversal (s : Solver ℝ) (hs : s.Sized) (h0 : ∀ l ∈ s.layers, l.Hdmi = ⟨0, 0, 0⟩) (H : CVec ℝ) (x : Coord → ℝ) :
    s.energy ⟨-H.x, -H.y, -H.z⟩ (flip x) = s.energy H x := by
  rw [energy_sum s hs, energy_sum s hs]
  congr 1
  · refine Finset.sum_congr rfl fun k hk => ?_
    have hk := Finset.mem_range.mp hk
    have hm : s.layerAt k ∈ s.layers := by
      rw [layerAt_eq, List.getD_eq_getElem?_getD, List.getElem?_eq_getElem hk]
      exact List.getElem_mem hk
    have hd := h0 _ hm
    congr 1
    rw [density_eq, density_eq, ← vec_m, ← vec_m, unit_flip, hd]
    have hH : vec (⟨-H.x, -H.y, -H.z⟩ : CVec ℝ) = -vec H := by ext i; fin_cases i <;> simp [vec]
    have hz : vec (⟨0, 0, 0⟩ : CVec ℝ) = 0 := by ext i; fin_cases i <;> simp [vec]
    rw [hH, hz]
    generalize vec ((s.layerAt k).m x) = m
    unfold Spec.density
    rw [add_zero, add_zero, neg_dotProduct_neg, neg_dotProduct, neg_sq]
    simp only [Pi.neg_apply, neg_sq]
  · refine Finset.sum_congr rfl fun k _ => ?_
    unfold Solver.gap gapE
    rw [unit_flip, unit_flip]
    congr 1
    · simp [Spec.coupling]
    · cases dipAt s.dipole k with
      | none => rfl
      | some A => simp [Spec.dipoleCoupling, Matrix.mulVec_neg]

private theorem turn_dot (δ : ℝ) (u v : Fin 3 → ℝ) : Spec.turn δ u ⬝ᵥ Spec.turn δ v = u ⬝ᵥ v := by
  simp only [Spec.turn, dotProduct, Fin.sum_univ_three, Matrix.cons_val_zero, Matrix.cons_val_one, Matrix.cons_val]
  linear_combination (u 0 * v 0 + u 1 * v 1) * Real.sin_sq_add_cos_sq δ

private theorem turn_cross (δ : ℝ) (u v : Fin 3 → ℝ) : Spec.turn δ u ⨯₃ Spec.turn δ v = Spec.turn δ (u ⨯₃ v) := by
  rw [cross_apply, cross_apply]
  ext i
  fin_cases i <;> simp [Spec.turn]
  · ring
  · ring
  · linear_combination (u 0 * v 1 - u 1 * v 0) * Real.sin_sq_add_cos_sq δ

private theorem turn_add (δ : ℝ) (u v : Fin 3 → ℝ) : Spec.turn δ (u + v) = Spec.turn δ u + Spec.turn δ v := by
  ext i
  fin_cases i <;> simp [Spec.turn] <;> ring

private theorem unit_turn (l : Layer ℝ) (δ : ℝ) (x : Coord → ℝ) : vec (l.m (turned δ x)) = Spec.turn δ (vec (l.m x)) := by
  rw [vec_m, vec_m]
  ext i
  fin_cases i <;> simp [Spec.unit, turned, Spec.turn, Real.cos_add, Real.sin_add] <;> ring

/-- A vector turned about z. -/
noncomputable def turnC (δ : ℝ) (v : CVec ℝ) : CVec ℝ :=
  ⟨v.x * Real.cos δ - v.y * Real.sin δ, v.x * Real.sin δ + v.y * Real.cos δ, v.z⟩

/-- A layer with its in-plane axis and internal field turned about z. -/
noncomputable def turnLayer (δ : ℝ) (l : Layer ℝ) : Layer ℝ :=
  { l with Kv := { l.Kv with phi := l.Kv.phi + δ }, Hdmi := turnC δ l.Hdmi }

private theorem vec_turnC (δ : ℝ) (v : CVec ℝ) : vec (turnC δ v) = Spec.turn δ (vec v) := by
  ext i; fin_cases i <;> simp [vec, turnC, Spec.turn]

/-- C80: turning everything - field, axes, internal fields, couplings and magnetisations - about z by the same angle leaves the energy
as it is, if the demagnetisation tensors and dipole tensors have no preferred direction in the plane. -/
theorem C80_rotation (s : Solver ℝ) (hs : s.Sized) (δ : ℝ) (hN : ∀ l ∈ s.layers, l.Ndemag.x = l.Ndemag.y)
    (hA : ∀ d ∈ s.dipole, ∀ A ∈ d, ∀ v, A.mat *ᵥ Spec.turn δ v = Spec.turn δ (A.mat *ᵥ v)) (H : CVec ℝ) (x : Coord → ℝ) :
    ({ s with layers := s.layers.map (turnLayer δ), ilD := s.ilD.map (turnC δ) } : Solver ℝ).energy (turnC δ H) (turned δ x) =
      s.energy H x := by
  set s' : Solver ℝ := { s with layers := s.layers.map (turnLayer δ), ilD := s.ilD.map (turnC δ) } with hs'
  have hs2 : s'.Sized := ⟨by simpa [hs'] using hs.j1, by simpa [hs'] using hs.j2, by simpa [hs'] using hs.d⟩
  have hl : ∀ k < s.layers.length, s'.layerAt k = turnLayer δ (s.layerAt k) := by
    intro k hk
    simp [layerAt_eq, hs', List.getD_eq_getElem?_getD, List.getElem?_eq_getElem hk]
  have hlen : s'.layers.length = s.layers.length := by simp [hs']
  rw [energy_sum s' hs2, energy_sum s hs, hlen]
  congr 1
  · refine Finset.sum_congr rfl fun k hk => ?_
    have hk := Finset.mem_range.mp hk
    have hm : s.layerAt k ∈ s.layers := by
      rw [layerAt_eq, List.getD_eq_getElem?_getD, List.getElem?_eq_getElem hk]
      exact List.getElem_mem hk
    have hn := hN _ hm
    rw [hl k hk]
    show _ * (s.layerAt k).thickness = _
    congr 1
    rw [density_eq, density_eq]
    have e1 : Spec.unit (turned δ x (.theta (turnLayer δ (s.layerAt k)).id)) (turned δ x (.phi (turnLayer δ (s.layerAt k)).id)) =
      Spec.turn δ (vec ((s.layerAt k).m x)) := unit_turn (s.layerAt k) δ x
    have e2 : vec (turnLayer δ (s.layerAt k)).Hdmi = Spec.turn δ (vec (s.layerAt k).Hdmi) := vec_turnC δ _
    rw [e1, e2, vec_turnC, ← vec_m]
    show Spec.density mu0 (s.layerAt k).Ms (s.layerAt k).Ks (s.layerAt k).Kv.mag ((s.layerAt k).Kv.phi + δ) (vec (s.layerAt k).Ndemag)
      _ _ _ = _
    generalize vec ((s.layerAt k).m x) = m
    unfold Spec.density
    rw [← turn_add, turn_dot]
    have e3 : (![Real.cos ((s.layerAt k).Kv.phi + δ), Real.sin ((s.layerAt k).Kv.phi + δ), 0] : Fin 3 → ℝ) =
        Spec.turn δ ![Real.cos (s.layerAt k).Kv.phi, Real.sin (s.layerAt k).Kv.phi, 0] := by
      ext i
      fin_cases i <;> (simp [Spec.turn, Real.cos_add, Real.sin_add]; try ring)
    rw [e3, turn_dot]
    congr 2
    simp only [Fin.sum_univ_three, Spec.turn, vec, Matrix.cons_val_zero, Matrix.cons_val_one, Matrix.cons_val, hn]
    linear_combination (s.layerAt k).Ndemag.y * (m 0 ^ 2 + m 1 ^ 2) * Real.sin_sq_add_cos_sq δ
  · refine Finset.sum_congr rfl fun k hk => ?_
    have hk := Finset.mem_range.mp hk
    unfold Solver.gap gapE
    rw [hl k (by omega), hl (k + 1) (by omega)]
    have e1 : vec ((turnLayer δ (s.layerAt k)).m (turned δ x)) = Spec.turn δ (vec ((s.layerAt k).m x)) := unit_turn (s.layerAt k) δ x
    have e2 : vec ((turnLayer δ (s.layerAt (k + 1))).m (turned δ x)) = Spec.turn δ (vec ((s.layerAt (k + 1)).m x)) :=
      unit_turn (s.layerAt (k + 1)) δ x
    rw [e1, e2]
    congr 1
    · have hkD : k < s.ilD.length := by have := hs.d; omega
      have e3 : vec (s'.ilD.getD k ⟨0, 0, 0⟩) = Spec.turn δ (vec (s.ilD.getD k ⟨0, 0, 0⟩)) := by
        rw [← vec_turnC]
        simp [hs', List.getD_eq_getElem?_getD, List.getElem?_eq_getElem hkD]
      rw [e3]
      unfold Spec.coupling
      rw [turn_cross, turn_dot, turn_dot]
    · have e4 : dipAt s'.dipole k = dipAt s.dipole k := rfl
      rw [e4]
      cases hd : dipAt s.dipole k with
      | none => rfl
      | some A =>
        have hmem : ∃ d ∈ s.dipole, A ∈ d := by
          unfold dipAt at hd
          cases hdd : s.dipole with
          | none => rw [hdd] at hd; simp at hd
          | some d =>
            rw [hdd] at hd
            exact ⟨d, rfl, List.mem_of_getElem? (by simpa using hd)⟩
        obtain ⟨d, hd1, hd2⟩ := hmem
        have hAv := hA d hd1 A hd2
        show Spec.dipoleCoupling mu0 (s.layerAt k).Ms (s.layerAt (k + 1)).Ms (s.layerAt k).thickness (s.layerAt (k + 1)).thickness
          A.mat _ _ = _
        unfold Spec.dipoleCoupling
        rw [hAv, hAv, turn_dot, turn_dot]

/-- C80: writing the stack down from the other end (couplings reversed, antisymmetric exchange with the opposite sign) describes the
same energy. -/
theorem C80_upside_down (s : Solver ℝ) (hs : s.Sized) (hN : ∀ d ∈ s.dipole, s.layers.length = d.length + 1) (H : CVec ℝ)
    (x : Coord → ℝ) :
    ({ s with layers := s.layers.reverse, J1 := s.J1.reverse, J2 := s.J2.reverse
              ilD := (s.ilD.map fun d => (⟨-d.x, -d.y, -d.z⟩ : CVec ℝ)).reverse
              dipole := s.dipole.map List.reverse } : Solver ℝ).energy H x = s.energy H x := by
  set s' : Solver ℝ := { s with layers := s.layers.reverse, J1 := s.J1.reverse, J2 := s.J2.reverse
                                ilD := (s.ilD.map fun d => (⟨-d.x, -d.y, -d.z⟩ : CVec ℝ)).reverse
                                dipole := s.dipole.map List.reverse } with hs'
  have hs2 : s'.Sized := ⟨by simpa [hs'] using hs.j1, by simpa [hs'] using hs.j2, by simpa [hs'] using hs.d⟩
  have hlen : s'.layers.length = s.layers.length := by simp [hs']
  have hl : ∀ k < s.layers.length, s'.layerAt k = s.layerAt (s.layers.length - 1 - k) := by
    intro k hk
    simp only [layerAt_eq, hs', List.getD_eq_getElem?_getD, List.getElem?_reverse hk]
  rw [energy_sum s' hs2, energy_sum s hs, hlen]
  congr 1
  · rw [← Finset.sum_range_reflect (fun k => (s.layerAt k).noInteraction H x * (s.layerAt k).thickness)]
    refine Finset.sum_congr rfl fun k hk => ?_
    rw [hl k (Finset.mem_range.mp hk)]
  · rw [← Finset.sum_range_reflect (fun k => s.gap k x)]
    refine Finset.sum_congr rfl fun k hk => ?_
    have hk := Finset.mem_range.mp hk
    have h1 := hs.j1; have h2 := hs.j2; have h3 := hs.d
    set q := s.layers.length - 1 - 1 - k with hq
    unfold Solver.gap gapE
    have ea : s'.layerAt k = s.layerAt (q + 1) := by rw [hl k (by omega)]; congr 1; omega
    have eb : s'.layerAt (k + 1) = s.layerAt q := by rw [hl (k + 1) (by omega)]; congr 1; omega
    rw [ea, eb]
    have e1 : s'.J1.getD k 0 = s.J1.getD q 0 := by
      simp only [hs', List.getD_eq_getElem?_getD, List.getElem?_reverse (show k < s.J1.length by omega)]
      congr 2; omega
    have e2 : s'.J2.getD k 0 = s.J2.getD q 0 := by
      simp only [hs', List.getD_eq_getElem?_getD, List.getElem?_reverse (show k < s.J2.length by omega)]
      congr 2; omega
    have e3 : vec (s'.ilD.getD k ⟨0, 0, 0⟩) = -vec (s.ilD.getD q ⟨0, 0, 0⟩) := by
      have hqD : q < s.ilD.length := by omega
      simp only [hs', List.getD_eq_getElem?_getD]
      rw [List.getElem?_reverse (by simp; omega)]
      have : (s.ilD.map fun d => (⟨-d.x, -d.y, -d.z⟩ : CVec ℝ)).length - 1 - k = q := by simp; omega
      rw [this, List.getElem?_map, List.getElem?_eq_getElem hqD]
      ext i; fin_cases i <;> simp [vec]
    rw [e1, e2, e3]
    congr 1
    · unfold Spec.coupling
      rw [dotProduct_comm (vec ((s.layerAt (q + 1)).m x)), ← cross_anticomm, neg_dotProduct_neg]
    · have e4 : dipAt s'.dipole k = dipAt s.dipole q := by
        cases hd : s.dipole with
        | none => simp [hs', hd, dipAt]
        | some d =>
          have hld := hN d (by rw [hd]; rfl)
          simp only [hs', hd, dipAt, Option.map_some, Option.bind_some]
          rw [List.getElem?_reverse (by omega)]
          congr 1; omega
      rw [e4]
      cases dipAt s.dipole q with
      | none => rfl
      | some A =>
        show Spec.dipoleCoupling _ _ _ _ _ _ _ _ = Spec.dipoleCoupling _ _ _ _ _ _ _ _
        unfold Spec.dipoleCoupling
        ring


/-! ## Concrete cases -/

/-- A layer with both anisotropies and demagnetisation. -/
noncomputable def film (id : Int) : Layer ℝ := ⟨id, 1e-9, ⟨0, 0.3, 1e3⟩, 1e5, 1e6, ⟨0, 0, 0⟩, ⟨0, 0, 1⟩, none⟩

/-- Three layers are accepted although their ids come out of order: the hypotheses of C55 and `mk_fields` are met. -/
example : ∃ s, Solver.mk' [film 1, film 0, film 2] [1e-4, -2e-4] [1e-5, 0] none none none = .ok s :=
  (C55_accept _ _ _ _ _ _).1.mpr ⟨rfl, rfl, by simp, by simp, by simp only [List.map, film, List.length, List.range]; decide⟩

/-- A repeated id or a list of couplings of the wrong length is refused. -/
example : Solver.mk' [film 0, film 0] [(1e-4 : ℝ)] [1e-5] none none none = .error .valueError :=
  (C55_accept _ _ _ _ _ _).2 fun h => by
    have := ((C55_accept _ _ _ _ _ _).1.mp h).2.2.2.2
    simp only [List.map, film, List.length, List.range] at this
    exact absurd this (by decide)
example : Solver.mk' [film 0, film 1] ([] : List ℝ) [1e-5] none none none = .error .valueError :=
  (C55_accept _ _ _ _ _ _).2 fun h => by
    have := ((C55_accept _ _ _ _ _ _).1.mp h).1
    simp at this

/-- The accepted stack. -/
noncomputable def stack : Solver ℝ :=
  ⟨[film 1, film 0, film 2], [1e-4, -2e-4], [1e-5, 0], none, [⟨0, 0, 0⟩, ⟨0, 0, 0⟩], none⟩

theorem stack_sized : stack.Sized := ⟨rfl, rfl, rfl⟩

/-- C78 on the stack: its couplings join the first with the second and the second with the third layer of the list. -/
example (H : CVec ℝ) (x : Coord → ℝ) := C78_energy stack stack_sized (by simp [stack]) H x

/-- C79 on the stack: the first layer sees its lower neighbour. -/
example (H : CVec ℝ) (x : Coord → ℝ) :
    pd (stack.energy H) (.theta 1) x =
      pd (fun y => (film 1).totalEnergy H 0 1e-4 0 1e-5 none (some (film 0)) y) (.theta 1) x :=
  C79_own stack stack_sized (by simp only [stack, List.map, film, List.length, List.range]; decide)
    (by simp [stack]) rfl H x 0 (by simp [stack]) (up' := none) (down' := some (film 0))
    (by simp [Solver.references, stack]) (by simp [Solver.references, stack]) (.theta 1) (Or.inl rfl)

/-- C80 on the stack. -/
example (H : CVec ℝ) (x : Coord → ℝ) := C80_reversal stack stack_sized (by simp [stack, film]) H x
example (δ : ℝ) (H : CVec ℝ) (x : Coord → ℝ) := C80_rotation stack stack_sized δ (by simp [stack, film]) (by simp [stack]) H x
example (H : CVec ℝ) (x : Coord → ℝ) := C80_upside_down stack stack_sized (by simp [stack]) H x

end SB
