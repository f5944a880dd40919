import Verif.Lemmas.Record
import Verif.Lemmas.RecordCols
import Verif.Lemmas.Carry
import Verif.Props.Logs

/-! # C113: what the energy columns of a log record -/

set_option linter.unusedSectionVars false
set_option linter.unusedSimpArgs false

namespace Spec
variable {T : Type} [Scalar T]

/-- The run from `j` to `k` appended the values `f i` for the logged steps `i` to the column. -/
def Appends (j k : Junction T) (steps : List Nat) (key : String) (f : Nat → T) : Prop :=
  k.log.col key = j.log.col key ++ steps.map f

/-- Time of the last evaluation of the equation of motion in step `i`: its start with Euler-Heun, else its end. -/
def recordTime (r : Junction.Runner) (dt : T) (i : Nat) : T :=
  if r = .eulerHeun then Scalar.lit (i : ℚ) * dt else Scalar.lit (i : ℚ) * dt + dt

/-- The same for the three columns of a vector. -/
def AppendsVec (j k : Junction T) (steps : List Nat) (keys : String × String × String) (f : Nat → CVec T) : Prop :=
  Appends j k steps keys.1 (fun i => (f i).x) ∧ Appends j k steps keys.2.1 (fun i => (f i).y) ∧ Appends j k steps keys.2.2 (fun i => (f i).z)

/-- The magnetisation at which a Runge-Kutta step evaluates its last stage. -/
noncomputable def lastStage (f : ℝ → CVec ℝ → CVec ℝ) (t dt : ℝ) (m : CVec ℝ) : CVec ℝ :=
  let k2 := f (t + dt / 2) (m + smul (dt / 2) (f t m))
  m + smul dt (f (t + dt / 2) (m + smul (dt / 2) k2))

/-- The magnetisation of layer `q` after a step of the explicit Euler method. -/
noncomputable def eulerMag (ls : List (Layer ℝ)) (t dt : ℝ) (q : Nat) : CVec ℝ :=
  match ls[q]? with
  | some l => l.mag + smul dt (motion l t l.mag (magBelow ls q) (magAbove ls q))
  | none => ⟨0, 0, 0⟩

/-- Where a step from the state `ls` evaluates the equation of motion of layer `q` for the last time: magnetisation `x`,
layer below `b` and layer above `a`. -/
def LastPoint (r : Junction.Runner) (ls : List (Layer ℝ)) (t dt : ℝ) (q : Nat) (l : Layer ℝ) (x b a : CVec ℝ) : Prop :=
  match r with
  | .eulerHeun => x = magOf ls q ∧ b = magBelow ls q ∧ a = magAbove ls q
  | .heun => ∃ ps : Nat → CVec ℝ, ((∀ l ∈ ls, ¬ Noisy l) → ∀ i < ls.length, ps i = eulerMag ls t dt i) ∧
      x = ps q ∧ b = (if q = 0 then ⟨0, 0, 0⟩ else ps (q - 1)) ∧ a = (if q + 1 < ls.length then ps (q + 1) else ⟨0, 0, 0⟩)
  | _ => b = magBelow ls q ∧ a = magAbove ls q ∧ x = lastStage (fun s m => motion l s m b a) t dt (magOf ls q)

end Spec

namespace Junction
open Spec Layer Keys
variable {T : Type} [Scalar T]

/-- helper: the states of a successful run -/
theorem steps_split {r : Runner} {dt : T} {N : Nat} {j : Junction T} (h : (steps r dt 0 N j).res = .ok ()) {i : Nat} (hi : i < N) :
    ∃ a b, steps r dt 0 i j = .ok () a ∧ a.runStep r (Scalar.lit (i : ℚ) * dt) dt = .ok () b ∧ steps r dt 0 (i + 1) j = .ok () b := by
  rw [steps_eq_evolve] at h
  obtain ⟨k, hk⟩ : ∃ k, evolve r dt 0 N j = .ok () k := ⟨_, by rw [Out.eq_ok_iff]; exact ⟨h, rfl⟩⟩
  obtain ⟨n, rfl⟩ : ∃ n, N = i + (n + 1) := ⟨N - i - 1, by omega⟩
  rw [evolve_add] at hk
  obtain ⟨a, ha⟩ : ∃ a, evolve r dt 0 i j = .ok () a := ⟨_, (bind_unit_ok hk).1⟩
  rw [ha, Out.bind_ok, Nat.zero_add] at hk
  unfold evolve at hk
  obtain ⟨b, hb⟩ : ∃ b, a.runStep r (Scalar.lit (i : ℚ) * dt) dt = .ok () b := ⟨_, (bind_unit_ok hk).1⟩
  refine ⟨_, _, by rw [steps_eq_evolve]; exact ha, hb, ?_⟩
  rw [steps_eq_evolve, evolve_add, ha, Out.bind_ok, Nat.zero_add]
  unfold evolve
  rw [hb]
  rfl

/-- helper -/
theorem solverLoop_cache (n : Nat) (mode : SolverMode) (ls : List (Layer T)) :
    List.Forall₂ (fun l l' : Layer T => l'.cache = l.cache) ls (solverLoop n mode ls).st := by
  have hc : ∀ l : Layer T, (l.createBufferedAlphaNoise n).st.cache = l.cache := by
    intro l
    unfold createBufferedAlphaNoise
    split
    · rfl
    · split <;> rfl
  induction ls generalizing mode with
  | nil => exact .nil
  | cons l ls ih =>
    unfold solverLoop
    dsimp only
    split
    · exact .cons rfl (ih _)
    · have := hc l
      generalize l.createBufferedAlphaNoise n = x at this
      rcases x with ⟨_ | _, l'⟩
      · exact .cons this (List.forall₂_same.2 fun _ _ => rfl)
      · exact .cons this (ih _)

/-- helper: what every layer has recorded after every step of a successful run, and the columns this gives -/
theorem run_rec {j k : Junction T} (hr : Reachable j) (hd : DistinctIds j) {total dt wf : T} {en : Bool} {mode : SolverMode}
    (h : j.runSimulation total dt wf en mode = .ok () k) :
    ∃ N W r m j1, Scalar.toUInt (total / dt) = some N ∧ Scalar.toUInt (wf / dt) = some W ∧
      j.getSolver mode N = .ok (r, m) j1 ∧
      ∀ (q : Nat) (l : Layer T), j.layers[q]? = some l → ∃ L : Nat → Layer T,
        (∀ i < N, Same l (L i) ∧ Kept l l.cache (L i).cache ∧ ∃ a b p, steps r dt 0 i j1 = .ok () p ∧
          (∃ l0, p.layers[q]? = some l0 ∧ Same l l0 ∧ ∃ x, Rec l (recordTime r dt i) x a b (L i).cache ∧
            At r p (Scalar.lit (i : ℚ) * dt) dt q l0 x a b)) ∧
        ∀ s, Suf s → ∀ f : Layer T → List T, (∀ l', Log.vals (layerEntries l' en) (l'.id ++ s) = f l') →
          k.log.col (l.id ++ s) = j.log.col (l.id ++ s) ++ (sampleSteps N W).flatMap (fun i => f (L i)) := by
  obtain ⟨hm, hR⟩ := Reachable_inv hr
  obtain ⟨N', W', r', m', j1', hw, hN', hW', hg', hloop⟩ := Sim.run_inv h
  obtain ⟨N, W, r, m, j1, -, hN, hW, hg, hNW, hlog, hlen, hlay⟩ := runSimulation_log hm h
  have hs1 : List.Forall₂ Same j.layers j1.layers := by
    have := getSolver_same j mode N; rw [hg] at this; exact this
  have hc1 : List.Forall₂ (fun l l' : Layer T => l'.cache = l.cache) j.layers j1.layers := by
    have := solverLoop_cache N mode j.layers
    unfold getSolver at hg
    generalize solverLoop N mode j.layers = x at this hg
    rcases x with ⟨_ | _, ls⟩
    · simp [Out.fail, Out.ok] at hg
    · simp only [Out.ok, Out.mk.injEq] at hg
      rw [← hg.2]; exact this
  have hr1 : r = .single → j1.layers.length = 1 := by
    intro e
    rw [← hs1.length_eq]
    have hp : ∃ m, r = pickRunner j.layerNo m := by
      unfold getSolver at hg
      generalize solverLoop N mode j.layers = x at hg
      rcases x with ⟨_ | m, ls⟩
      · simp [Out.fail, Out.ok] at hg
      · simp only [Out.ok, Out.mk.injEq, Except.ok.injEq, Prod.mk.injEq] at hg
        exact ⟨m, hg.1.1.symm⟩
    obtain ⟨m, hp⟩ := hp
    rw [hp] at e
    exact pickRunner_single e
  rw [logged_eq] at hlog
  have hres : (steps r dt 0 N j1).res = .ok () := by
    rw [hN] at hN'; cases hN'
    rw [hg] at hg'; cases hg'
    obtain ⟨k', hk', -⟩ := runLoop_evolve _ dt _ en hloop rfl
    rw [steps_eq_evolve, hk']; rfl
  have hst : ∀ i, List.Forall₂ Same j.layers (steps r dt 0 i j1).st.layers := fun i => by
    rw [steps_eq_evolve]; exact sames_trans hs1 (evolve_same r dt i 0 j1)
  have hms : ∀ i, (j.withLayers (steps r dt 0 i j1).st.layers).MrOk := fun i => mrOk_withLayers hm (hst i).length_eq.symm
  have hids : ∀ i, j.layers.map Layer.id = (steps r dt 0 i j1).st.layers.map Layer.id := fun i => (same_ids (hst i)).symm
  refine ⟨N, W, r, m, j1, hN, hW, hg, fun q l hl => ?_⟩
  have hq : ∀ i, ∃ l', (steps r dt 0 i j1).st.layers[q]? = some l' ∧ Same l l' := fun i => (hst i).getElem?_some hl
  choose M hM1 hM2 using hq
  have hstep : ∀ i, i < N → Kept (M i) (M i).cache (M (i + 1)).cache ∧ ∃ p, steps r dt 0 i j1 = .ok () p ∧
      ∃ x a b, Rec (M i) (recordTime r dt i) x a b (M (i + 1)).cache ∧ At r p (Scalar.lit (i : ℚ) * dt) dt q (M i) x a b := by
    intro i hi
    obtain ⟨a, b, ha, hab, hb⟩ := steps_split hres hi
    have h1 := hM1 i
    have h2 := hM1 (i + 1)
    have hl1 : r = .single → a.layers.length = 1 := by
      intro e
      have t1 := (hst i).length_eq
      rw [ha] at t1
      rw [← hr1 e, ← hs1.length_eq, t1]; rfl
    rw [ha] at h1
    rw [hb] at h2
    obtain ⟨k1, x, y, z, hx⟩ := step_rec hab hl1 h1 h2
    exact ⟨k1, a, ha, x, y, z, hx⟩
  have hkept : ∀ i, i ≤ N → Kept l l.cache (M i).cache := by
    intro i
    induction i with
    | zero =>
      intro _
      obtain ⟨l1, e1, e2⟩ := hc1.getElem?_some hl
      have h0 := hM1 0
      have : some l1 = some (M 0) := by rw [← e1, ← h0]; rfl
      cases this
      rw [e2]; exact Kept.refl _ _
    | succ i ih =>
      intro hi
      exact (ih (by omega)).trans ((hstep i (by omega)).1.same (hM2 i))
  refine ⟨fun i => M (i + 1), fun i hi => ⟨hM2 _, hkept _ hi, ?_⟩, fun s hs f hv => ?_⟩
  · obtain ⟨-, p, hp, x, a, b, hx, hy⟩ := hstep i hi
    refine ⟨a, b, p, hp, M i, ?_, hM2 i, x, hx.same (hM2 i), hy⟩
    have := hM1 i
    rwa [hp] at this
  · rw [hlog, Log.col_pushAll, Log.vals_flatMap, List.flatMap_map]
    congr 1
    refine List.flatMap_congr fun i _ => ?_
    have hid : (M (i + 1)).id = l.id := (hM2 (i + 1)).id
    rw [← hid, row_layer j (hms _) hR (hids _) (by rw [← hids]; exact hd) (List.mem_of_getElem? (hM1 (i + 1))) hs, hv]

/-- helper: the columns of one layer -/
def Cols (j k : Junction T) (l : Layer T) (N W : Nat) (L : Nat → Layer T) : Prop :=
  ∀ s, Suf s → ∀ f : Layer T → List T, (∀ l', Log.vals (layerEntries l' true) (l'.id ++ s) = f l') →
    k.log.col (l.id ++ s) = j.log.col (l.id ++ s) ++ (sampleSteps N W).flatMap (fun i => f (L i))

/-- helper -/
theorem Cols.one {j k : Junction T} {l : Layer T} {N W : Nat} {L : Nat → Layer T} (h : Cols j k l N W L) {s : String} (hs : Suf s)
    (g : Layer T → List T) (hv : ∀ l', Log.vals (layerEntries l' true) (l'.id ++ s) = g l') {f : Nat → T} (hf : ∀ i < N, g (L i) = [f i]) :
    Appends j k (sampleSteps N W) (l.id ++ s) f := by
  unfold Appends
  rw [h s hs _ hv]
  congr 1
  rw [List.map_eq_flatMap]
  exact List.flatMap_congr fun i hi => hf i ((C27_sample_steps N W i).1 hi).1

/-- helper -/
theorem Cols.vec {j k : Junction T} {l : Layer T} {N W : Nat} {L : Nat → Layer T} (h : Cols j k l N W L) {sx sy sz : String}
    (hx : Suf sx) (hy : Suf sy) (hz : Suf sz) (g : Layer T → CVec T)
    (vx : ∀ l', Log.vals (layerEntries l' true) (l'.id ++ sx) = [(g l').x])
    (vy : ∀ l', Log.vals (layerEntries l' true) (l'.id ++ sy) = [(g l').y])
    (vz : ∀ l', Log.vals (layerEntries l' true) (l'.id ++ sz) = [(g l').z]) {f : Nat → CVec T} (hf : ∀ i < N, g (L i) = f i) :
    AppendsVec j k (sampleSteps N W) (l.id ++ sx, l.id ++ sy, l.id ++ sz) f :=
  ⟨h.one hx _ vx fun i hi => by rw [hf i hi], h.one hy _ vy fun i hi => by rw [hf i hi], h.one hz _ vz fun i hi => by rw [hf i hi]⟩

/-- helper: columns that only layers with a spin-orbit torque have -/
theorem Cols.sot {j k : Junction T} {l : Layer T} {N W : Nat} {L : Nat → Layer T} (h : Cols j k l N W L) {sx sy sz : String}
    (hx : Suf sx) (hy : Suf sy) (hz : Suf sz) (g : Layer T → CVec T)
    (vx : ∀ l', Log.vals (layerEntries l' true) (l'.id ++ sx) = if l'.includeSOT then [(g l').x] else [])
    (vy : ∀ l', Log.vals (layerEntries l' true) (l'.id ++ sy) = if l'.includeSOT then [(g l').y] else [])
    (vz : ∀ l', Log.vals (layerEntries l' true) (l'.id ++ sz) = if l'.includeSOT then [(g l').z] else [])
    {f : Nat → CVec T} (hs : ∀ i < N, (L i).includeSOT = true) (hf : ∀ i < N, g (L i) = f i) :
    AppendsVec j k (sampleSteps N W) (l.id ++ sx, l.id ++ sy, l.id ++ sz) f :=
  ⟨h.one hx _ vx fun i hi => by rw [hf i hi, hs i hi]; rfl, h.one hy _ vy fun i hi => by rw [hf i hi, hs i hi]; rfl,
    h.one hz _ vz fun i hi => by rw [hf i hi, hs i hi]; rfl⟩

/-- C113. With energies, the columns of the drivers hold the anisotropy, the couplings and the external field at the time
of the last evaluation in the logged step. -/
theorem C113_drivers {j k : Junction T} (hr : Reachable j) (hd : DistinctIds j) {total dt wf : T} {mode : SolverMode}
    (h : j.runSimulation total dt wf true mode = .ok () k) :
    ∃ N W r m j1, Scalar.toUInt (total / dt) = some N ∧ Scalar.toUInt (wf / dt) = some W ∧ j.getSolver mode N = .ok (r, m) j1 ∧
      ∀ l ∈ j.layers,
        Appends j k (sampleSteps N W) (l.id ++ "_K") (fun i => l.anisotropyDriver.value (recordTime r dt i)) ∧
        Appends j k (sampleSteps N W) (l.id ++ "_Jbottom") (fun i => l.IECDriverBottom.value (recordTime r dt i)) ∧
        Appends j k (sampleSteps N W) (l.id ++ "_Jtop") (fun i => l.IECDriverTop.value (recordTime r dt i)) ∧
        AppendsVec j k (sampleSteps N W) (l.id ++ "_Hextx", l.id ++ "_Hexty", l.id ++ "_Hextz")
          (fun i => l.externalFieldDriver.value (recordTime r dt i)) := by
  obtain ⟨N, W, r, m, j1, hN, hW, hg, hA⟩ := run_rec hr hd h
  refine ⟨N, W, r, m, j1, hN, hW, hg, fun l hl => ?_⟩
  obtain ⟨q, hq⟩ := List.mem_iff_getElem?.1 hl
  obtain ⟨L, hL, hc⟩ := hA q l hq
  have hc : Cols j k l N W L := hc
  have hR : ∀ i < N, ∃ x a b, Rec l (recordTime r dt i) x a b (L i).cache := fun i hi => by
    obtain ⟨-, -, a, b, p, -, l0, -, -, x, hx, -⟩ := hL i hi
    exact ⟨x, a, b, hx⟩
  refine ⟨hc.one suf_K (fun l => [l.cache.K]) (fun l => by rw [vals_K]; rfl) fun i hi => ?_,
    hc.one ⟨"Jbottom".toList, by decide, by decide⟩ _ vals_Jbottom fun i hi => ?_,
    hc.one ⟨"Jtop".toList, by decide, by decide⟩ _ vals_Jtop fun i hi => ?_,
    hc.vec ⟨"Hextx".toList, by decide, by decide⟩ ⟨"Hexty".toList, by decide, by decide⟩ ⟨"Hextz".toList, by decide, by decide⟩
      (fun l => l.cache.Hext) vals_Hextx vals_Hexty vals_Hextz fun i hi => ?_⟩ <;>
    obtain ⟨x, a, b, hx⟩ := hR i hi
  · rw [hx.K]
  · rw [hx.Jbottom]
  · rw [hx.Jtop]
  · exact hx.ext

/-- C113. The current column: with a spin-transfer torque, or a spin-orbit torque driven by the current, every logged row
adds the current of the last evaluation twice; without torques it adds once what the layer had recorded before. -/
theorem C113_current {j k : Junction T} (hr : Reachable j) (hd : DistinctIds j) {total dt wf : T} {mode : SolverMode}
    (h : j.runSimulation total dt wf true mode = .ok () k) :
    ∃ N W r m j1, Scalar.toUInt (total / dt) = some N ∧ Scalar.toUInt (wf / dt) = some W ∧ j.getSolver mode N = .ok (r, m) j1 ∧
      ∀ l ∈ j.layers,
        ((l.includeSTT = true ∨ (l.includeSOT = true ∧ l.dynamicSOT = false)) →
          k.log.col (l.id ++ "_I") = j.log.col (l.id ++ "_I") ++ (sampleSteps N W).flatMap
            (fun i => [l.currentDriver.value (recordTime r dt i), l.currentDriver.value (recordTime r dt i)])) ∧
        (l.includeSTT = false → l.includeSOT = false →
          Appends j k (sampleSteps N W) (l.id ++ "_I") (fun _ => l.cache.I)) := by
  obtain ⟨N, W, r, m, j1, hN, hW, hg, hA⟩ := run_rec hr hd h
  refine ⟨N, W, r, m, j1, hN, hW, hg, fun l hl => ?_⟩
  obtain ⟨q, hq⟩ := List.mem_iff_getElem?.1 hl
  obtain ⟨L, hL, hc⟩ := hA q l hq
  have e := hc _ suf_I _ vals_I
  refine ⟨fun ht => ?_, fun h1 h2 => ?_⟩
  · rw [e]
    congr 1
    refine List.flatMap_congr fun i hi => ?_
    obtain ⟨hs, -, a, b, p, -, l0, -, -, x, hx, -⟩ := hL i ((C27_sample_steps N W i).1 hi).1
    obtain ⟨_, _, _, _, _, e'⟩ := hs
    have e1 : ((L i).includeSTT || (L i).includeSOT) = true := by
      rw [e']; rcases ht with ht | ht <;> simp [ht]
    rw [if_pos e1, hx.current ht]
  · unfold Appends
    rw [e, List.map_eq_flatMap]
    congr 1
    refine List.flatMap_congr fun i hi => ?_
    obtain ⟨hs, hk, -⟩ := hL i ((C27_sample_steps N W i).1 hi).1
    have e1 : ((L i).includeSTT || (L i).includeSOT) = false := by
      obtain ⟨_, _, _, _, _, e'⟩ := hs
      rw [e']; simp [h1, h2]
    rw [e1, if_neg (by simp), hk.current (by simp [h1, h2])]

/-- helper -/
theorem rkLast_eq (f : ℝ → CVec ℝ → CVec ℝ) (t dt : ℝ) (m : CVec ℝ) : rkLast f t dt m = lastStage f t dt m := by
  have e1 : ∀ v : CVec ℝ, smul dt v * (1 / 2 : ℝ) = smul (dt / 2) v := fun v => by
    ext <;> simp only [smul, CVec.mulr_x, CVec.mulr_y, CVec.mulr_z] <;> ring
  have e2 : ∀ v : CVec ℝ, v * dt = smul dt v := fun v => by ext <;> simp [smul, mul_comm]
  have e3 : (1 / 2 : ℝ) * dt = dt / 2 := by ring
  unfold rkLast lastStage
  simp only [Scalar.ofSci_real_true]
  norm_num only
  simp only [e2, e3]
  simp only [e1]

/-- helper -/
theorem lastPoint_of {p : Junction ℝ} {r : Runner} {t dt : ℝ} {q : Nat} {l l0 : Layer ℝ} {x b a : CVec ℝ} (h0 : p.layers[q]? = some l0)
    (hs : Same l l0) (hg : l.Guard) (h : At r p t dt q l0 x b a) : LastPoint r p.layers t dt q l x b a := by
  have hm : l0.mag = magOf p.layers q := by unfold magOf; rw [h0]
  have hl : ∀ s m b a, l0.llgV s m b a = motion l s m b a := fun s m b a => by
    obtain ⟨_, _, _, _, _, rfl⟩ := hs
    exact Order.llgV_eq _ _ _ _ _ hg
  cases r with
  | single => 
    obtain ⟨e1, e2, e3⟩ := h
    refine ⟨by rw [e1, below_eq], by rw [e2, above_eq], ?_⟩
    rw [e3, rkLast_eq, hm]
    simp only [hl]
  | multi =>
    obtain ⟨e1, e2, e3⟩ := h
    refine ⟨by rw [e1, below_eq], by rw [e2, above_eq], ?_⟩
    rw [e3, rkLast_eq, hm]
    simp only [hl]
  | eulerHeun =>
    obtain ⟨e1, e2, e3⟩ := h
    exact ⟨by rw [e1, hm], by rw [e2, below_eq], by rw [e3, above_eq]⟩
  | heun =>
    obtain ⟨stages, ls, s, ht, hq, e1, e2, e3⟩ := h
    obtain ⟨hlen, -, h3⟩ := Out.traverse_ok _ ht
    have hq' : q < stages.length := (List.getElem?_eq_some_iff.1 hq).1
    refine ⟨fun i => (stages.map HeunStage.mNext).getD i .zero, fun hn i hi => ?_, ?_, ?_, ?_⟩
    · obtain ⟨v, y, hv, -, hy⟩ := h3 i p.layers[i] (List.getElem?_eq_getElem hi)
      have hni : ¬ Noisy p.layers[i] := hn _ (List.getElem_mem hi)
      have hgi : (p.layers[i]).Guard := by
        have hy' := hy
        unfold heunPredict at hy'
        obtain ⟨f, l1, h1, -⟩ := Out.bind_eq_ok hy'
        exact (llg_rec _ _ _ _ _ h1).1
      have hqu : Order.Quiet p.layers[i] := by
        refine ⟨hgi, ?_, ?_⟩
        · by_contra e; exact hni (.inl (by simpa using e))
        · by_contra e; exact hni (.inr (by simpa using e))
      obtain ⟨d, hd⟩ := hqu.predict p.layers[i].cache p.layers[i].mag t dt (p.layers.map Layer.mag) i
      have he : ((p.layers[i]).setCache (p.layers[i]).cache).setMag (p.layers[i]).mag = p.layers[i] := rfl
      rw [he] at hd
      rw [Nat.zero_add, hd] at hy
      simp only [Out.ok, Out.mk.injEq, Except.ok.injEq] at hy
      dsimp only
      rw [List.getD_eq_getElem?_getD, List.getElem?_map, hv, ← hy.1]
      unfold eulerMag
      rw [List.getElem?_eq_getElem hi]
      simp only [Option.map_some, Option.getD_some, below_eq, above_eq]
      congr 1
      ext <;> simp [smul, mul_comm]
    · dsimp only; rw [e1, List.getD_eq_getElem?_getD, List.getElem?_map, hq]; rfl
    · rw [e2]; unfold below
      split
      · ext <;> simp
      · rfl
    · rw [e3]; unfold above
      rw [List.length_map, hlen]
      by_cases hc : q + 1 < p.layers.length
      · rw [if_neg (by omega), if_pos hc]
      · rw [if_pos (by omega), if_neg hc]; ext <;> simp

/-- C113. With energies, the columns of the fields hold the anisotropy field, the demagnetising field and the exchange
field of both neighbours, all taken at one and the same point, where the step evaluates the equation of motion last. -/
theorem C113_fields {j k : Junction ℝ} (hr : Reachable j) (hd : DistinctIds j) {total dt wf : ℝ} {mode : SolverMode}
    (h : j.runSimulation total dt wf true mode = .ok () k) :
    ∃ N W r m j1, Scalar.toUInt (total / dt) = some N ∧ Scalar.toUInt (wf / dt) = some W ∧ j.getSolver mode N = .ok (r, m) j1 ∧
      ∀ (q : Nat) (l : Layer ℝ), j.layers[q]? = some l → ∃ x b a : Nat → CVec ℝ,
        (∀ i < N, LastPoint r (steps r dt 0 i j1).st.layers (i * dt) dt q l (x i) (b i) (a i)) ∧
        AppendsVec j k (sampleSteps N W) (l.id ++ "_Hanisx", l.id ++ "_Hanisy", l.id ++ "_Hanisz")
          (fun i => anisField l.anis l.Ms (l.anisotropyDriver.value (recordTime r dt i)) (x i)) ∧
        AppendsVec j k (sampleSteps N W) (l.id ++ "_Hdemagx", l.id ++ "_Hdemagy", l.id ++ "_Hdemagz")
          (fun i => tensorField l.demagTensor l.Ms (x i)) ∧
        AppendsVec j k (sampleSteps N W) (l.id ++ "_Hiecx", l.id ++ "_Hiecy", l.id ++ "_Hiecz")
          (fun i => exchangeField l.Ms l.thickness (l.IECDriverBottom.value (recordTime r dt i))
              (l.IECQuadDriverBottom.value (recordTime r dt i)) (x i) (b i) +
            exchangeField l.Ms l.thickness (l.IECDriverTop.value (recordTime r dt i))
              (l.IECQuadDriverTop.value (recordTime r dt i)) (x i) (a i)) ∧
        (l.includeSTT = false → l.includeSOT = true →
          AppendsVec j k (sampleSteps N W) (l.id ++ "_Hflx", l.id ++ "_Hfly", l.id ++ "_Hflz")
            (fun i => smul ((sotFields l (recordTime r dt i)).1 - l.damping * (sotFields l (recordTime r dt i)).2) (polariser l (b i) (a i))) ∧
          AppendsVec j k (sampleSteps N W) (l.id ++ "_Hdlx", l.id ++ "_Hdly", l.id ++ "_Hdlz")
            (fun i => smul ((sotFields l (recordTime r dt i)).2 + l.damping * (sotFields l (recordTime r dt i)).1) (polariser l (b i) (a i)))) := by
  obtain ⟨N, W, r, m, j1, hN, hW, hg, hA⟩ := run_rec hr hd h
  refine ⟨N, W, r, m, j1, hN, hW, hg, fun q l hq => ?_⟩
  obtain ⟨L, hL, hc⟩ := hA q l hq
  have hc : Cols j k l N W L := hc
  have hR : ∀ i, ∃ x b a, i < N → Rec l (recordTime r dt i) x b a (L i).cache ∧
      LastPoint r (steps r dt 0 i j1).st.layers (i * dt) dt q l x b a := fun i => by
    by_cases hi : i < N
    · obtain ⟨-, -, b, a, p, hp, l0, h0, hs, x, hx, hy⟩ := hL i hi
      refine ⟨x, b, a, fun _ => ⟨hx, ?_⟩⟩
      rw [hp]
      have := lastPoint_of h0 hs hx.guard hy
      simpa using this
    · exact ⟨.zero, .zero, .zero, fun hn => absurd hn hi⟩
  choose x b a hR using hR
  have hS : l.includeSOT = true → ∀ i < N, (L i).includeSOT = true := fun h2 i hi => by
    obtain ⟨_, _, _, _, _, e⟩ := (hL i hi).1
    rw [e]; exact h2
  refine ⟨x, b, a, fun i hi => (hR i hi).2, ?_, ?_, ?_, fun h1 h2 => ⟨?_, ?_⟩⟩
  · refine hc.vec ⟨"Hanisx".toList, by decide, by decide⟩ ⟨"Hanisy".toList, by decide, by decide⟩ ⟨"Hanisz".toList, by decide, by decide⟩
      (fun l => l.cache.HAnis) vals_Hanisx vals_Hanisy vals_Hanisz fun i hi => ?_
    rw [(hR i hi).1.anis]
    ext <;>
    · simp only [anisotropyField, anisField, smul, CVec.dot, CVec.mulr_x, CVec.mulr_y, CVec.mulr_z, Scalar.ofNat_real, Nat.cast_ofNat]
      ring
  · refine hc.vec ⟨"Hdemagx".toList, by decide, by decide⟩ ⟨"Hdemagy".toList, by decide, by decide⟩ ⟨"Hdemagz".toList, by decide, by decide⟩
      (fun l => l.cache.Hdemag) vals_Hdemagx vals_Hdemagy vals_Hdemagz fun i hi => ?_
    rw [(hR i hi).1.demag]
    ext <;>
    · simp only [Tensor.interaction, tensorField, Const.mu0, CVec.mulr_x, CVec.mulr_y, CVec.mulr_z, Scalar.ofSci_real_true]
      norm_num
      ring
  · refine hc.vec ⟨"Hiecx".toList, by decide, by decide⟩ ⟨"Hiecy".toList, by decide, by decide⟩ ⟨"Hiecz".toList, by decide, by decide⟩
      (fun l => l.cache.HIEC) vals_Hiecx vals_Hiecy vals_Hiecz fun i hi => ?_
    rw [(hR i hi).1.iec]
    have hi' : ∀ J J2 m c, l.iecV J J2 m c = exchangeField l.Ms l.thickness J J2 m c :=
      fun J J2 m c => (iec_eq (iec_ok l J J2 m c (hR i hi).1.guard)).2
    simp only [hi']
  · refine hc.sot ⟨"Hflx".toList, by decide, by decide⟩ ⟨"Hfly".toList, by decide, by decide⟩ ⟨"Hflz".toList, by decide, by decide⟩
      (fun l => l.cache.Hfl_v) vals_Hflx vals_Hfly vals_Hflz (hS h2) fun i hi => ?_
    rw [(hR i hi).1.torqueF h1 h2, reference_eq_polariser]
    unfold sotFields
    cases l.dynamicSOT <;> ext <;> simp [smul] <;> ring
  · refine hc.sot ⟨"Hdlx".toList, by decide, by decide⟩ ⟨"Hdly".toList, by decide, by decide⟩ ⟨"Hdlz".toList, by decide, by decide⟩
      (fun l => l.cache.Hdl_v) vals_Hdlx vals_Hdly vals_Hdlz (hS h2) fun i hi => ?_
    rw [(hR i hi).1.torqueD h1 h2, reference_eq_polariser]
    unfold sotFields
    cases l.dynamicSOT <;> ext <;> simp [smul] <;> ring

/-- C113. The columns of the thermal field repeat what the layer had recorded before the run, whatever its temperature. -/
theorem C113_thermal {j k : Junction T} (hr : Reachable j) (hd : DistinctIds j) {total dt wf : T} {mode : SolverMode}
    (h : j.runSimulation total dt wf true mode = .ok () k) :
    ∃ N W, Scalar.toUInt (total / dt) = some N ∧ Scalar.toUInt (wf / dt) = some W ∧ ∀ l ∈ j.layers,
      AppendsVec j k (sampleSteps N W) (l.id ++ "_Hthx", l.id ++ "_Hthy", l.id ++ "_Hthz") (fun _ => l.cache.Hfluctuation) := by
  obtain ⟨N, W, r, m, j1, hN, hW, hg, hA⟩ := run_rec hr hd h
  refine ⟨N, W, hN, hW, fun l hl => ?_⟩
  obtain ⟨q, hq⟩ := List.mem_iff_getElem?.1 hl
  obtain ⟨L, hL, hc⟩ := hA q l hq
  have hc : Cols j k l N W L := hc
  exact hc.vec ⟨"Hthx".toList, by decide, by decide⟩ ⟨"Hthy".toList, by decide, by decide⟩ ⟨"Hthz".toList, by decide, by decide⟩
    (fun l => l.cache.Hfluctuation) vals_Hthx vals_Hthy vals_Hthz fun i hi => (hL i hi).2.1.fluct

/-- A layer with a field that is switched on at time one half. -/
noncomputable def switchLayer : Layer ℝ :=
  { quietLayer with
    externalFieldDriver := ⟨⟨.step, 0, 1, -1, -1, -1, -1, 1 / 2, 2, -1, -1⟩, .null, .null⟩ }

/-- A junction of that layer. -/
noncomputable def switchJ : Junction ℝ := { demoJ with layers := [switchLayer] }

theorem switchJ_constructed : Constructed switchJ := .inl ⟨[switchLayer], by simp [plain, switchJ, demoJ]⟩

/-- C113: the fields of a row are not those at the time of the row. A run of one Runge-Kutta step logs one row with time
zero; its external field is that at time one. -/
theorem C113_time_refuted : ∃ (j k : Junction ℝ) (l : Layer ℝ), Reachable j ∧ DistinctIds j ∧ j.layers = [l] ∧
    j.runSimulation 1 1 1 true .RK4 = .ok () k ∧ k.log.col "time" = [0] ∧ (l.externalFieldDriver.value 0).x = 0 ∧
    k.log.col (l.id ++ "_Hextx") = [1] := by
  have hR : Reachable switchJ := ⟨switchJ, [], switchJ_constructed, rfl⟩
  have hd : DistinctIds switchJ := by simp [DistinctIds, switchJ]
  have hQ : ∀ l ∈ switchJ.layers, ¬ Noisy l := by simp [switchJ, switchLayer, quietLayer, plainOf, Layer.demo, Noisy]
  obtain ⟨k, hk⟩ := one_step_run switchJ hR (by simp [switchJ, switchLayer, quietLayer, plainOf, Layer.demo]) hQ true
  have hs : ∀ {N W : Nat}, Scalar.toUInt ((1 : ℝ) / 1) = some N → Scalar.toUInt ((1 : ℝ) / 1) = some W → sampleSteps N W = [0] := by
    intro N W hN hW
    rw [toUInt_unit] at hN hW; cases hN; cases hW; rfl
  refine ⟨switchJ, k, switchLayer, hR, hd, rfl, hk, ?_, ?_, ?_⟩
  · obtain ⟨N, W, r, m, j1, hN, hW, hg, -, -, -, -, ht, -⟩ := C27_run hR hd hk
    rw [ht, hs hN hW]
    simp [switchJ, demoJ, Log.col]
  · simp [switchLayer, AxialDriver.value, ScalarDriver.value, ScalarDriver.stepUpdate]
  · obtain ⟨N, W, r, m, j1, hN, hW, hg, hl⟩ := C113_drivers hR hd hk
    obtain ⟨-, -, -, h1, -, -⟩ := hl switchLayer (by simp [switchJ])
    rw [solver_quiet switchJ hQ] at hg
    simp only [Out.ok, Out.mk.injEq, Except.ok.injEq, Prod.mk.injEq] at hg
    obtain ⟨⟨rfl, -⟩, -⟩ := hg
    unfold Appends at h1
    rw [h1, hs hN hW]
    have e : recordTime (pickRunner switchJ.layers.length .RK4) (1 : ℝ) 0 = 1 := by
      rw [recordTime, if_neg (by simp [pickRunner, switchJ])]; simp
    simp only [List.map_cons, List.map_nil, e]
    simp [switchJ, demoJ, Log.col, switchLayer, AxialDriver.value, ScalarDriver.value, ScalarDriver.stepUpdate]
    norm_num

/-- A junction of two coupled layers, the lower one with a spin-orbit torque, that meets the hypotheses. -/
noncomputable def coupledJ : Junction ℝ :=
  { demoJ with
    layers := [{ quietLayer with includeSOT := true, IECDriverTop := .constantDriver 2 },
      { quietLayer with id := "pinned", mag := ⟨1, 0, 0⟩, IECDriverBottom := .constantDriver 2 }] }

example : Reachable coupledJ ∧ DistinctIds coupledJ ∧ ∀ mode, ∃ k, coupledJ.runSimulation 1 1 1 true mode = .ok () k := by
  have hR : Reachable coupledJ := ⟨coupledJ, [], .inl ⟨coupledJ.layers, by simp [plain, coupledJ, demoJ]⟩, rfl⟩
  refine ⟨hR, by simp [DistinctIds, coupledJ, quietLayer, plainOf, Layer.demo], fun mode => ?_⟩
  exact C27_completes coupledJ hR (by simp [coupledJ, quietLayer, plainOf, Layer.demo])
    (by simp [coupledJ, quietLayer, plainOf, Layer.demo, Noisy]) 1 1 1 true mode (by norm_num) (by norm_num) (by norm_num) (by norm_num)
    (by norm_num)

end Junction
