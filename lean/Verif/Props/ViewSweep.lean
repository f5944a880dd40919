import Verif.Props.ViewFit
import Mathlib.Order.Bounds.Basic

set_option linter.unusedSectionVars false

/-!
# C102 and C103: Smit-Beljers sweeps of the front end and their error
-/

namespace View
open Spec

/-! ### Layers -/

/-- The easy plane angle as a vector in the plane. -/
noncomputable def inPlane (φ : ℝ) : CVec ℝ := ⟨Real.cos φ, Real.sin φ, 0⟩

/-- The part in the plane of a vector. -/
def projected (u : CVec ℝ) : CVec ℝ := ⟨u.x, u.y, 0⟩

theorem cartesian_degrees (θ φ A : ℝ) : VectorObj.getCartesian ⟨PyGeneral.deg2rad θ, PyGeneral.deg2rad φ, A⟩ = FieldScan.angle2vector θ φ A := by
  simp only [VectorObj.getCartesian, VectorObj.fromSpherical, FieldScan.angle2vector, FieldScan.trigCompute, CVec.mk.injEq]
  refine ⟨by ring, by ring, by ring⟩

theorem demag_default : (VectorObj.fromCartesian (@OfNat.ofNat ℝ 0 (Scalar.instOfNat 0)) (@OfNat.ofNat ℝ 0 (Scalar.instOfNat 0))
    (@OfNat.ofNat ℝ 1 (Scalar.instOfNat 1))).getCartesian = ⟨0, 0, 1⟩ := by
  simp [VectorObj.fromCartesian, VectorObj.getCartesian, VectorObj.fromSpherical]

theorem layer_eq (weak : ℝ) (i : ℕ) (hi : i < 10) (a : String) (K th Ms θ φ : ℝ) (e : axisAngles a = .ok (θ, φ)) :
    ∃ l, sbLayer weak i a K th Ms = .ok (l, [PyGeneral.deg2rad θ, PyGeneral.deg2rad φ]) ∧ l.id = i ∧ l.thickness = th / 10 ^ 9 ∧ l.Ms = Ms / SB.mu0 ∧
      l.Hdmi = ⟨0, 0, 0⟩ ∧ l.Ndemag = ⟨0, 0, 1⟩ ∧ l.dyn = none ∧ l.Kv.phi = φ * Real.pi / 180 ∧
      (θ = 0 → l.Ks = K * 1000 ∧ l.Kv.mag = weak) ∧ (θ ≠ 0 → l.Kv.mag = K * 1000 ∧ l.Ks = weak) := by
  unfold sbLayer
  rw [e]
  simp only [bind, Except.bind]
  unfold SB.Layer.mk'
  rw [if_neg (by omega)]
  refine ⟨_, rfl, rfl, ?_, rfl, ?_, demag_default, rfl, FieldScan.deg2rad_real φ, fun h => ?_, fun h => ?_⟩
  · simp only [Scalar.ofSci_real_true]
    norm_num
    ring
  · simp
  · simp only [h, Scalar.eqb_real, Scalar.ofNat_real, Nat.cast_zero, decide_true, if_true, Scalar.ofSci_real_false]
    norm_num
  · simp only [h, Scalar.eqb_real, Scalar.ofNat_real, Nat.cast_zero, decide_false, Bool.false_eq_true, if_false, Scalar.ofSci_real_false]
    norm_num

/-- **C102.** A layer of the sweep for an offered axis: its number, the thickness in metres, the magnetisation in A/m, the default demagnetising
tensor; for "z" the entered constant is that of the surface anisotropy and the other one is weak; else it is that of the anisotropy in the
plane and the surface anisotropy is weak. The easy axis in the plane is the part in the plane of the selected axis. The layer starts along
the selected axis. -/
theorem C102_layer (weak : ℝ) (i : ℕ) (hi : i < 10) (a : String) (ha : a ∈ axisNames) (K th Ms : ℝ) :
    ∃ l θ φ, sbLayer weak i a K th Ms = .ok (l, [θ, φ]) ∧ l.id = i ∧ l.thickness = th / 10 ^ 9 ∧ l.Ms = Ms / SB.mu0 ∧ l.Hdmi = ⟨0, 0, 0⟩ ∧
      l.Ndemag = ⟨0, 0, 1⟩ ∧ l.dyn = none ∧
      (a = "z" → l.Ks = K * 1000 ∧ l.Kv.mag = weak) ∧ (a ≠ "z" → l.Kv.mag = K * 1000 ∧ l.Ks = weak ∧ Along (projected (named a)) (inPlane l.Kv.phi)) ∧
      ∀ A, Pointing (VectorObj.getCartesian ⟨θ, φ, A⟩) (named a) A := by
  obtain ⟨θ, φ, e, hp⟩ := (C99_angles a).1 ha
  obtain ⟨l, h1, h2, h3, h4, h5, h6, h7, h8, h9, h10⟩ := layer_eq weak i hi a K th Ms θ φ e
  refine ⟨l, _, _, h1, h2, h3, h4, h5, h6, h7, fun hz => ?_, fun hz => ?_, fun A => by rw [cartesian_degrees]; exact hp A⟩
  · subst hz
    rw [angles_eq.2.2.1] at e
    exact h9 (by simpa using (Prod.mk.inj (Except.ok.inj e)).1.symm)
  · obtain ⟨n1, n2, n3, n4, n5, n6⟩ := named_eq
    obtain ⟨e1, e2, e3, e4, e5, e6⟩ := angles_eq
    obtain ⟨t1, t2, t3, t4⟩ := table
    have h0 : θ ≠ 0 := by
      rcases axis_cases ha with rfl | rfl | rfl | rfl | rfl | rfl
      · rw [e1] at e; rw [← (Prod.mk.inj (Except.ok.inj e)).1]; norm_num
      · rw [e2] at e; rw [← (Prod.mk.inj (Except.ok.inj e)).1]; norm_num
      · exact absurd rfl hz
      · rw [e4] at e; rw [← (Prod.mk.inj (Except.ok.inj e)).1]; norm_num
      · rw [e5] at e; rw [← (Prod.mk.inj (Except.ok.inj e)).1]; norm_num
      · rw [e6] at e; rw [← (Prod.mk.inj (Except.ok.inj e)).1]; norm_num
    refine ⟨(h10 h0).1, (h10 h0).2, ?_⟩
    rw [h8, inPlane]
    rcases axis_cases ha with rfl | rfl | rfl | rfl | rfl | rfl
    · rw [e1] at e; rw [← (Prod.mk.inj (Except.ok.inj e)).2, n1]; exact ⟨1, by simp [projected]⟩
    · rw [e2] at e; rw [← (Prod.mk.inj (Except.ok.inj e)).2, n2]; exact ⟨1, by simp [projected, t1, t2]⟩
    · exact absurd rfl hz
    · rw [e4] at e
      rw [← (Prod.mk.inj (Except.ok.inj e)).2, n4]
      refine ⟨√2, ?_⟩
      have hs : √2 * (√2 / 2) = 1 := by
        have := Real.mul_self_sqrt (show (0 : ℝ) ≤ 2 by norm_num)
        linarith
      simp [projected, t3, t4, hs]
    · rw [e5] at e; rw [← (Prod.mk.inj (Except.ok.inj e)).2, n5]; exact ⟨1, by simp [projected]⟩
    · rw [e6] at e; rw [← (Prod.mk.inj (Except.ok.inj e)).2, n6]; exact ⟨1, by simp [projected, t1, t2]⟩

/-- **C102, refuted.** For the two tilted axes "xz" and "yz" the easy axis of the layer is not the selected one. -/
theorem C102_tilted_refuted (weak : ℝ) (i : ℕ) (hi : i < 10) (a : String) (ha : a = "xz" ∨ a = "yz") (K th Ms : ℝ) :
    ∃ l start, sbLayer weak i a K th Ms = .ok (l, start) ∧ ¬ Along (named a) (inPlane l.Kv.phi) := by
  obtain ⟨l, θ, φ, h1, -⟩ := C102_layer weak i hi a (by rcases ha with rfl | rfl <;> simp [axisNames]) K th Ms
  refine ⟨l, _, h1, ?_⟩
  rintro ⟨c, hc⟩
  have := congrArg CVec.z hc
  obtain ⟨n1, n2, n3, n4, n5, n6⟩ := named_eq
  rcases ha with rfl | rfl
  · simp [n5, inPlane] at this
  · simp [n6, inPlane] at this

/-! ### The sweep -/

theorem solver_fields {layers : List (SB.Layer ℝ)} {J1 J2 : List ℝ} {H : Option (VectorObj ℝ)} {S : SB.Solver ℝ}
    (h : SB.Solver.mk' layers J1 J2 H none none = .ok S) : S.layers = layers ∧ S.J1 = J1 ∧ S.J2 = J2 ∧ S.H = H := by
  unfold SB.Solver.mk' at h
  split at h
  · simp at h
  · split at h
    · simp at h
    · dsimp only at h
      split at h
      · simp at h
      · split at h
        · simp at h
        · split at h
          · simp only [Except.ok.injEq] at h
            subst h
            exact ⟨rfl, rfl, rfl, rfl⟩
          · simp at h

/-- **C102.** A sweep solves once for each field, in order. Each solve has the layers and couplings of the fit, no quadratic couplings and the field
of that magnitude, and starts from the positions found for the field before; the first from the given ones. The result has one entry for
each frequency found: the field in kA/m and the frequency, in the order of the fields. -/
theorem C102_sweep {solve : SB.Solver ℝ → List ℝ → Except Err (List ℝ × List ℝ)} {layers : List (SB.Layer ℝ)} {Js : List ℝ} {θ φ : ℝ}
    {hs init : List ℝ} {out : List (ℝ × ℝ)} (h : sbSweep solve layers Js θ φ hs init = .ok out) :
    ∃ rs : List (List ℝ × List ℝ), rs.length = hs.length ∧
      out = (List.zipWith (fun x (r : List ℝ × List ℝ) => r.2.map fun f => (x / 1000, f)) hs rs).flatten ∧
      ∀ (n : ℕ) (x : ℝ), hs[n]? = some x → ∃ S r before, rs[n]? = some r ∧ S.layers = layers ∧ S.J1 = Js ∧ S.J2 = Js.map (fun _ => 0) ∧
        S.H = some ⟨θ, φ, x⟩ ∧ (if n = 0 then before = init else ∃ q, rs[n - 1]? = some q ∧ before = q.1) ∧ solve S before = .ok r := by
  induction hs generalizing init out with
  | nil =>
    refine ⟨[], rfl, ?_, by simp⟩
    simp only [sbSweep, Except.ok.injEq] at h
    simp [← h]
  | cons x hs ih =>
    rw [sbSweep] at h
    simp only [bind, Except.bind] at h
    split at h
    · simp at h
    · rename_i S hS
      split at h
      · simp at h
      · rename_i r hr
        split at h
        · simp at h
        · rename_i rest hrest
          obtain ⟨rs, h1, h2, h3⟩ := ih hrest
          have hS' := solver_fields hS
          simp only [Scalar.ofNat_real, Nat.cast_zero] at hS'
          refine ⟨r :: rs, by simp [h1], ?_, ?_⟩
          · simp only [Except.ok.injEq] at h
            rw [← h, List.zipWith_cons_cons, List.flatten_cons, ← h2]
            congr 1
            refine List.map_congr_left fun f _ => ?_
            simp only [Scalar.ofSci_real_false]
            norm_num
          · intro n y hy
            cases n with
            | zero =>
              obtain rfl : x = y := by simpa using hy
              exact ⟨S, r, init, rfl, hS'.1, hS'.2.1, hS'.2.2.1, hS'.2.2.2, by simp, hr⟩
            | succ n =>
              obtain ⟨S2, r2, before, q1, q2, q3, q4, q5, q6, q7⟩ := h3 n y (by simpa using hy)
              refine ⟨S2, r2, before, by simpa using q1, q2, q3, q4, q5, ?_, q7⟩
              rw [if_neg (by omega)]
              split at q6
              · subst_vars
                exact ⟨r, rfl, rfl⟩
              · obtain ⟨q, e1, e2⟩ := q6
                exact ⟨q, by rw [show n + 1 - 1 = (n - 1) + 1 by omega, List.getElem?_cons_succ]; exact e1, e2⟩

theorem collect_congr {α β : Type} {f g : α → Except Err β} {l : List α} (h : ∀ a ∈ l, f a = g a) : Proc.collect f l = Proc.collect g l := by
  induction l with
  | nil => rfl
  | cons a l ih => simp only [Proc.collect, h a (by simp), ih fun x hx => h x (by simp [hx])]

/-- The sweep both functions make, from the values in the units of the page, with `weak` as the constant of the other anisotropy. -/
noncomputable def sweepWith (weak : ℝ) (solve : SB.Solver ℝ → List ℝ → Except Err (List ℝ × List ℝ)) (N : ℕ) (axes : ℕ → String) (K th Ms J : ℕ → ℝ)
    (Haxis : String) (hvals : List ℝ) : Except Err (List (ℝ × ℝ)) :=
  match Proc.collect (fun i => sbLayer weak i (axes i) (K i) (th i) (Ms i)) (List.range N), axisAngles Haxis with
  | .ok made, .ok (θ, φ) => sbSweep solve (made.map (·.1)) ((List.range (N - 1)).map fun i => J i / 10 ^ 6) θ φ hvals (made.flatMap (·.2))
  | .error e, _ => .error e
  | _, .error e => .error e

theorem micro_eq (x : ℝ) : x * @OfScientific.ofScientific ℝ Scalar.instOfSci 1 true 6 = x / 10 ^ 6 := by
  rw [Scalar.ofSci_real_true]
  norm_num
  ring

/-- **C102.** The sweep of the page, if it had the easy axes: the values of the page, with 10 as the constant of the other anisotropy. -/
theorem C102_page (solve : SB.Solver ℝ → List ℝ → Except Err (List ℝ × List ℝ)) (s : Session ℝ) (axes : ℕ → String) (K th Ms J : ℕ → ℝ) (Haxis : String)
    (hvals : List ℝ) (h1 : ∀ i < s.N, s.text (key "anisotropy_axis" i) = some (axes i)) (h2 : ∀ i < s.N, s.num (key "K" i) = some (K i))
    (h3 : ∀ i < s.N, s.num (key "thickness" i) = some (th i)) (h4 : ∀ i < s.N, s.num (key "Ms" i) = some (Ms i))
    (h5 : ∀ i, i + 1 < s.N → s.num (key "J" i) = some (J i)) (h6 : s.text "H_axis" = some Haxis) :
    simulateSb solve s hvals = sweepWith 10 solve s.N axes K th Ms J Haxis hvals := by
  unfold simulateSb sweepWith
  have e : Proc.collect (fun i => do
      let axis ← get s.text (key "anisotropy_axis" i)
      let K ← get s.num (key "K" i)
      let thickness ← get s.num (key "thickness" i)
      let Ms ← get s.num (key "Ms" i)
      sbLayer (@OfNat.ofNat ℝ 10 (Scalar.instOfNat 10)) i axis K thickness Ms) (List.range s.N) =
      Proc.collect (fun i => sbLayer 10 i (axes i) (K i) (th i) (Ms i)) (List.range s.N) := by
    refine collect_congr fun i hi => ?_
    have hi' := List.mem_range.1 hi
    rw [get_some (h1 i hi'), get_some (h2 i hi'), get_some (h3 i hi'), get_some (h4 i hi')]
    simp [bind, Except.bind]
  rw [e, get_some h6, collect_map (g := J) fun i hi => get_some (h5 i (by have := List.mem_range.1 hi; omega))]
  rcases Proc.collect (fun i => sbLayer 10 i (axes i) (K i) (th i) (Ms i)) (List.range s.N) with e1 | made
  · rfl
  · simp only [bind, Except.bind]
    rcases axisAngles Haxis with e2 | ⟨θ, φ⟩
    · rfl
    · simp only [List.map_map, Function.comp_def, micro_eq]

theorem item_of {α : Type} {xs : List α} {i : ℕ} {x : α} (h : xs[i]? = some x) : item xs i = .ok x := by
  rw [item, h]

/-- **C102.** The sweep of a fit: the same with 1 as the constant of the other anisotropy. -/
theorem C102_fit (solve : SB.Solver ℝ → List ℝ → Except Err (List ℝ × List ℝ)) (N : ℕ) (axes : ℕ → String) (K th Ms J : ℕ → ℝ) (Haxis : String)
    (hvals : List ℝ) (kw : Params ℝ) (hk : kwargsToList kw N = .ok ((List.range (N - 1)).map J, (List.range N).map K, (List.range N).map Ms)) :
    simulateSbWrapper solve hvals N ((List.range N).map th) ((List.range N).map axes) Haxis kw = sweepWith 1 solve N axes K th Ms J Haxis hvals := by
  unfold simulateSbWrapper sweepWith
  rw [hk]
  simp only [bind, Except.bind]
  rw [collect_congr (g := fun i => sbLayer 1 i (axes i) (K i) (th i) (Ms i)) fun i hi => ?_]
  · rcases Proc.collect (fun i => sbLayer 1 i (axes i) (K i) (th i) (Ms i)) (List.range N) with e1 | made
    · rfl
    · simp only
      rcases axisAngles Haxis with e2 | ⟨θ, φ⟩
      · rfl
      · simp only [List.map_map, Function.comp_def, micro_eq]
  · have hi' := List.mem_range.1 hi
    rw [item_of (x := axes i) (by simp [hi']), item_of (x := K i) (by simp [hi']), item_of (x := th i) (by simp [hi']),
      item_of (x := Ms i) (by simp [hi'])]
    simp

theorem solver_ok (layers : List (SB.Layer ℝ)) (J1 J2 : List ℝ) (H : Option (VectorObj ℝ)) (h1 : layers.length = J1.length + 1)
    (h2 : layers.length = J2.length + 1) (hid : layers.map (·.id) = (List.range layers.length).map Int.ofNat) :
    ∃ S, SB.Solver.mk' layers J1 J2 H none none = .ok S := by
  unfold SB.Solver.mk'
  rw [if_neg (by omega), if_neg (by omega)]
  dsimp only
  rw [if_neg (by simp; omega), if_neg (by simp), hid, if_pos]
  · exact ⟨_, rfl⟩
  · rw [Bool.and_eq_true, List.all_eq_true]
    exact ⟨fun x hx => by simpa using hx, fun x hx => by simpa using hx⟩

theorem sweep_returns {solve : SB.Solver ℝ → List ℝ → Except Err (List ℝ × List ℝ)} (hs : ∀ S x, ∃ r, solve S x = .ok r) {layers : List (SB.Layer ℝ)}
    {Js : List ℝ} (h1 : layers.length = Js.length + 1) (hid : layers.map (·.id) = (List.range layers.length).map Int.ofNat) (θ φ : ℝ) (hv init : List ℝ) :
    ∃ out, sbSweep solve layers Js θ φ hv init = .ok out := by
  induction hv generalizing init with
  | nil => exact ⟨[], rfl⟩
  | cons x hv ih =>
    obtain ⟨S, hS⟩ := solver_ok layers Js (Js.map fun _ => @OfNat.ofNat ℝ 0 (Scalar.instOfNat 0)) (some ⟨θ, φ, x⟩) h1 (by simpa using h1) hid
    obtain ⟨r, hr⟩ := hs S init
    obtain ⟨out, ho⟩ := ih r.1
    rw [sbSweep]
    simp only [bind, Except.bind]
    rw [hS]
    simp only
    rw [hr]
    simp only
    rw [ho]
    exact ⟨_, rfl⟩

/-- The layers of a sweep. -/
theorem made_eq (weak : ℝ) (N : ℕ) (hN : N ≤ 10) (axes : ℕ → String) (ha : ∀ i < N, axes i ∈ axisNames) (K th Ms : ℕ → ℝ) :
    ∃ made, Proc.collect (fun i => sbLayer weak i (axes i) (K i) (th i) (Ms i)) (List.range N) = .ok made ∧ made.length = N ∧
      (made.map (·.1)).map (·.id) = (List.range N).map Int.ofNat ∧
      ∀ i < N, ∃ l θ φ, made[i]? = some (l, [θ, φ]) ∧ sbLayer weak i (axes i) (K i) (th i) (Ms i) = .ok (l, [θ, φ]) := by
  obtain ⟨made, h1, h2, h3⟩ := collect_exists (f := fun i => sbLayer weak i (axes i) (K i) (th i) (Ms i)) (l := List.range N)
    (P := fun i p => p.1.id = i ∧ ∃ θ φ, p.2 = [θ, φ]) fun i hi => by
      have hi' := List.mem_range.1 hi
      obtain ⟨l, θ, φ, e, hid, -⟩ := C102_layer weak i (by omega) (axes i) (ha i hi') (K i) (th i) (Ms i)
      exact ⟨_, e, hid, θ, φ, rfl⟩
  rw [List.length_range] at h2
  refine ⟨made, h1, h2, ?_, fun i hi => ?_⟩
  · refine List.ext_getElem? fun n => ?_
    by_cases hn : n < N
    · obtain ⟨b, e1, -, e2, -⟩ := h3 n n (by simp [hn])
      simp [e1, e2, hn]
    · rw [List.getElem?_eq_none (by simp; omega), List.getElem?_eq_none (by simp; omega)]
  · obtain ⟨⟨l, st⟩, e1, e2, -, θ, φ, e3⟩ := h3 i i (by simp [hi])
    simp only at e3
    subst e3
    exact ⟨l, θ, φ, e1, e2⟩

/-- **C102.** A sweep returns if the solver does, for up to ten layers and offered axes. -/
theorem C102_returns (weak : ℝ) (solve : SB.Solver ℝ → List ℝ → Except Err (List ℝ × List ℝ)) (hs : ∀ S x, ∃ r, solve S x = .ok r) (N : ℕ) (hN : 0 < N)
    (hN' : N ≤ 10) (axes : ℕ → String) (ha : ∀ i < N, axes i ∈ axisNames) (K th Ms J : ℕ → ℝ) (Haxis : String) (hH : Haxis ∈ axisNames)
    (hvals : List ℝ) : ∃ out, sweepWith weak solve N axes K th Ms J Haxis hvals = .ok out := by
  obtain ⟨made, h1, h2, h3, -⟩ := made_eq weak N hN' axes ha K th Ms
  obtain ⟨θ, φ, e, -⟩ := (C99_angles Haxis).1 hH
  unfold sweepWith
  rw [h1, e]
  exact sweep_returns hs (by simp; omega) (by rw [h3]; simp [h2]) θ φ hvals _

/-- **C102, refuted.** The page and a fit with the same values need not give the same spectrum, even for the simplest stack: the other anisotropy of a
layer is 10 in one and 1 in the other. -/
theorem C102_same_refuted : ∃ (solve : SB.Solver ℝ → List ℝ → Except Err (List ℝ × List ℝ)) (s : Session ℝ) (kw : Params ℝ) (hvals : List ℝ) (a b : List (ℝ × ℝ)),
    s.N = 1 ∧ s.num "K0" = some 150 ∧ s.num "Ms0" = some 1 ∧ s.num "thickness0" = some 1 ∧ s.text "anisotropy_axis0" = some "x" ∧
      s.text "H_axis" = some "z" ∧ kw = [("K0", 150), ("Ms0", 1)] ∧
      simulateSb solve s hvals = .ok a ∧ simulateSbWrapper solve hvals 1 [1] ["x"] "z" kw = .ok b ∧ a ≠ b := by
  have k1 : key "K" 0 = "K0" := by decide
  have k2 : key "Ms" 0 = "Ms0" := by decide
  have k3 : key "thickness" 0 = "thickness0" := by decide
  have k4 : key "anisotropy_axis" 0 = "anisotropy_axis0" := by decide
  have hw : ∀ weak : ℝ, sweepWith weak (fun S _ => .ok ([], S.layers.map (·.Ks))) 1 (fun _ => "x") (fun _ => 150) (fun _ => 1) (fun _ => 1) (fun _ => 0)
      "z" [0] = .ok [(0, weak)] := by
    intro weak
    obtain ⟨made, h1, h2, h3, h4⟩ := made_eq weak 1 (by norm_num) (fun _ => "x") (by simp [axisNames]) (fun _ => 150) (fun _ => 1) (fun _ => 1)
    obtain ⟨l, θ, φ, h5, h6⟩ := h4 0 (by norm_num)
    obtain ⟨l', θ', φ', e1, -, -, -, -, -, -, -, e2, -⟩ := C102_layer weak 0 (by norm_num) "x" (by simp [axisNames]) 150 1 1
    rw [e1] at h6
    obtain ⟨rfl, -⟩ := Prod.mk.inj (Except.ok.inj h6)
    obtain rfl : made = [(l', [θ, φ])] := by
      match made, h2, h5 with
      | [x], _, h5 => simpa using h5
    have hret := C102_returns weak (fun S _ => .ok ([], S.layers.map (·.Ks))) (fun S x => ⟨_, rfl⟩) 1 (by norm_num) (by norm_num) (fun _ => "x")
      (by simp [axisNames]) (fun _ => 150) (fun _ => 1) (fun _ => 1) (fun _ => 0) "z" (by simp [axisNames]) [0]
    obtain ⟨out, hout⟩ := hret
    rw [hout]
    unfold sweepWith at hout
    rw [h1, angles_eq.2.2.1] at hout
    obtain ⟨rs, r1, r2, r3⟩ := C102_sweep hout
    obtain ⟨S, r, before, q1, q2, -, -, -, -, q7⟩ := r3 0 0 rfl
    have hr : r = ([], [l'.Ks]) := by
      have := (Except.ok.inj q7).symm
      rw [q2] at this
      simpa using this
    match rs, r1, q1 with
    | [x], _, q1 =>
      obtain rfl : x = r := by simpa using q1
      rw [r2, hr]
      simp [(e2 (by simp)).2.1]
  refine ⟨fun S _ => .ok ([], S.layers.map (·.Ks)), ⟨1, fun k => if k = "K0" then some 150 else if k = "Ms0" then some 1 else if k = "thickness0" then some 1 else none,
    fun _ => none, fun k => if k = "anisotropy_axis0" then some "x" else if k = "H_axis" then some "z" else none, fun _ => none⟩,
    [("K0", 150), ("Ms0", 1)], [0], [(0, 10)], [(0, 1)], rfl, by simp, by simp, by simp, by simp, by simp, rfl, ?_, ?_, ?_⟩
  · rw [C102_page _ _ (fun _ => "x") (fun _ => 150) (fun _ => 1) (fun _ => 1) (fun _ => 0) "z" [0]]
    · exact hw 10
    · exact fun i hi => by obtain rfl : i = 0 := Nat.lt_one_iff.1 hi; rw [k4]; simp
    · exact fun i hi => by obtain rfl : i = 0 := Nat.lt_one_iff.1 hi; rw [k1]; simp
    · exact fun i hi => by obtain rfl : i = 0 := Nat.lt_one_iff.1 hi; rw [k3]; simp
    · exact fun i hi => by obtain rfl : i = 0 := Nat.lt_one_iff.1 hi; rw [k2]; simp
    · exact fun i hi => by
        have : i + 1 < 1 := hi
        omega
    · simp
  · have := C102_fit (fun S _ => .ok ([], S.layers.map (·.Ks))) 1 (fun _ => "x") (fun _ => 150) (fun _ => 1) (fun _ => 1) (fun _ => 0) "z" [0] [("K0", 150), ("Ms0", 1)]
      (by simp [kwargsToList, Proc.collect, param, k1, k2, List.lookup, bind, Except.bind])
    rw [hw 1] at this
    simpa using this
  · simp

end View
