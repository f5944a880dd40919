import Verif.Props.ViewAxes
import Verif.Props.PyProcScan
import Verif.Props.Setters
import Verif.Props.ReservoirLogs

set_option linter.unusedSectionVars false

/-!
# C100: the junction of the front end
-/

namespace View
open Spec

/-! ### Keys -/

theorem key_inj {p : String} {i k : ℕ} (h : key p i = key p k) : i = k := by
  have h1 := congrArg String.toList h
  simp only [key, String.toList_append, List.append_cancel_left_eq] at h1
  exact Reservoir.toString_inj (String.toList_inj.1 h1)

theorem get_some {α : Type} {f : String → Option α} {k : String} {v : α} (h : f k = some v) : get f k = .ok v := by
  rw [get, h]

theorem get_none {α : Type} {f : String → Option α} {k : String} (h : f k = none) : get f k = .error .keyError := by
  rw [get, h]

/-- The keys of a layer are among those of the page. -/
theorem mem_numbers {N i : ℕ} (hi : i < N) {k : String} (hk : k ∈ layerNumbers i) : k ∈ spectrumNumbers N := by
  simp only [spectrumNumbers, List.mem_append, List.mem_flatMap, List.mem_range]
  exact Or.inl (Or.inl ⟨i, hi, hk⟩)

/-- The keys of the couplings are among those of the page. -/
theorem mem_coupling {N i : ℕ} (hi : i + 1 < N) : key "J" i ∈ spectrumNumbers N := by
  simp only [spectrumNumbers, List.mem_append, List.mem_map, List.mem_range]
  exact Or.inl (Or.inr ⟨i, by omega, rfl⟩)

/-- A comprehension of calls that return. -/
theorem collect_exists {α β : Type} {f : α → Except Err β} {l : List α} {P : α → β → Prop} (h : ∀ a ∈ l, ∃ b, f a = .ok b ∧ P a b) :
    ∃ bs, Proc.collect f l = .ok bs ∧ bs.length = l.length ∧ ∀ (i : ℕ) (a : α), l[i]? = some a → ∃ b, bs[i]? = some b ∧ f a = .ok b ∧ P a b := by
  induction l with
  | nil => exact ⟨[], rfl, rfl, by simp⟩
  | cons a l ih =>
    obtain ⟨b, hb, hp⟩ := h a (by simp)
    obtain ⟨bs, hbs, hl, hg⟩ := ih fun x hx => h x (by simp [hx])
    refine ⟨b :: bs, by simp [Proc.collect, hb, hbs], by simp [hl], fun i x hx => ?_⟩
    cases i with
    | zero =>
      obtain rfl : a = x := by simpa using hx
      exact ⟨b, rfl, hb, hp⟩
    | succ i => simpa using hg i x (by simpa using hx)

/-! ### Layers -/

/-- A unit vector does not vanish. -/
theorem angle_length (θ φ : ℝ) : (FieldScan.angle2vector θ φ (@OfNat.ofNat ℝ 1 (Scalar.instOfNat 1))).length ≠ 0 := by
  rw [Scalar.ofNat_real]
  intro h
  rw [CVec.length_eq_zero] at h
  have h1 := (FieldScan.C49_vector θ φ 1).2
  rw [Nat.cast_one] at h
  rw [h] at h1
  simp [magnitude, CVec.zero] at h1

/-- What the layer the front end makes is required to be: magnetisation and easy axis along the two angles, the entered values in SI units,
demagnetised as a thin film, no torques, no noise, no field. -/
structure PageLayer (l : Layer ℝ) (id : String) (θ φ Ms K thickness α : ℝ) : Prop where
  id : l.id = id
  mag : l.mag = unitAt θ φ
  anis : l.anis = unitAt θ φ
  Ms : l.Ms = Ms
  thickness : l.thickness = thickness / 10 ^ 9
  surface : l.cellSurface = 1 / 10 ^ 16
  volume : l.cellVolume = l.cellSurface * l.thickness
  damping : l.damping = α
  demag : l.demagTensor = ⟨⟨0, 0, 0⟩, ⟨0, 0, 0⟩, ⟨0, 0, 1⟩⟩
  anisotropy : ∀ t, l.anisotropyDriver.value t = K * 1000
  field : ∀ t, l.externalFieldDriver.value t = ⟨0, 0, 0⟩ ∧ l.HoeDriver.value t = ⟨0, 0, 0⟩ ∧ l.HreservedDriver.value t = ⟨0, 0, 0⟩ ∧
    l.HdmiDriver.value t = ⟨0, 0, 0⟩
  torque : l.includeSTT = false ∧ l.includeSOT = false
  noise : ¬ Noisy l

section literals
variable {T : Type} [Scalar T]

/-- The constructor call of both pages. -/
def rawLayer (id : String) (θ φ Ms th α : T) (g : ℕ → T) (a : ℕ → Axis → ℕ → ℕ → T) : Except Err (Layer T) :=
  Layer.plain id (FieldScan.angle2vector θ φ 1) (FieldScan.angle2vector θ φ 1) Ms (th * 1e-9) 1e-16 thinFilm α g a

/-- The anisotropy of both pages. -/
def rawAnisotropy (l : Layer T) (K : T) : Layer T := l.setAnisotropyDriver (.constantDriver (K * 1e3))

/-- The resistance parameters of the spectrum page. -/
def rawResistance (length width : T) : Proc.ResParams T :=
  { Rxx0 := 100, Rxy0 := 1, Rsmr := -0.46, Rahe := -2.7, Ramr := -0.24, l := length * 1e-6, w := width * 1e-6 }

/-- A coupling of the spectrum page. -/
def rawCoupling (J : T) : ScalarDriver T := .constantDriver (J * 1e-6)

end literals

/-- The layer before the couplings: in addition, no coupling to neighbours. -/
theorem plain_layer (id : String) (θ φ Ms K th α : ℝ) (g : ℕ → ℝ) (a : ℕ → Axis → ℕ → ℕ → ℝ) :
    ∃ l, rawLayer id θ φ Ms th α g a = .ok l ∧ PageLayer (rawAnisotropy l K) id θ φ Ms K th α ∧
      (rawAnisotropy l K).IECDriverTop = .null ∧ (rawAnisotropy l K).IECDriverBottom = .null := by
  have h := angle_length θ φ
  refine ⟨_, by rw [rawLayer, Layer.plain, Layer.mk', if_neg (by simpa using h), if_neg (by simpa using h)], ⟨rfl, ?_, ?_, rfl, ?_, ?_, rfl, rfl, ?_, ?_, ?_, ⟨rfl, rfl⟩, ?_⟩, rfl, rfl⟩
  · simp [rawAnisotropy, Layer.setAnisotropyDriver, FieldScan.angle2vector_real]
  · simp [rawAnisotropy, Layer.setAnisotropyDriver, FieldScan.angle2vector_real]
  · simp only [rawAnisotropy, Layer.setAnisotropyDriver, Scalar.ofSci_real_true]
    norm_num
    ring
  · simp only [rawAnisotropy, Layer.setAnisotropyDriver, Scalar.ofSci_real_true]
    norm_num
  · simp [rawAnisotropy, Layer.setAnisotropyDriver, thinFilm]
  · intro t
    simp [rawAnisotropy, Layer.setAnisotropyDriver, ScalarDriver.constantDriver, ScalarDriver.value]
    norm_num
  · intro t
    simp [rawAnisotropy, Layer.setAnisotropyDriver, AxialDriver.value, AxialDriver.null, ScalarDriver.null, ScalarDriver.value]
  · simp [rawAnisotropy, Layer.setAnisotropyDriver, Noisy]

/-- A coupling keeps what the layer is. -/
theorem PageLayer.coupled {l : Layer ℝ} {id : String} {θ φ Ms K th α : ℝ} (h : PageLayer l id θ φ Ms K th α) (d e : ScalarDriver ℝ) :
    PageLayer { l with
      IECDriverTop := d, IECDriverBottom := e } id θ φ Ms K th α :=
  ⟨h.id, h.mag, h.anis, h.Ms, h.thickness, h.surface, h.volume, h.damping, h.demag, h.anisotropy, h.field, h.torque, h.noise⟩

/-- The resistance parameters of the front end, with the lengths in metres. -/
def PageResistance (r : Proc.ResParams ℝ) (length width : ℝ) : Prop :=
  r.Rxx0 = 100 ∧ r.Rxy0 = 1 ∧ r.Rsmr = -0.46 ∧ r.Rahe = -2.7 ∧ r.Ramr = -0.24 ∧ r.l = length / 10 ^ 6 ∧ r.w = width / 10 ^ 6

theorem createLayer_page (s : Session ℝ) (v : String → ℝ) (hv : ∀ k ∈ spectrumNumbers s.N, s.num k = some (v k)) (i : ℕ) (hi : i < s.N)
    (g : ℕ → ℝ) (a : ℕ → Axis → ℕ → ℕ → ℝ) :
    ∃ p, createLayer s i g a = .ok p ∧
      PageLayer p.1 (key "layer_" i) (v (key "theta_K" i)) (v (key "phi_K" i)) (v (key "Ms" i)) (v (key "K" i)) (v (key "thickness" i))
        (v (key "alpha" i)) ∧ p.1.IECDriverTop = .null ∧ p.1.IECDriverBottom = .null ∧
      PageResistance p.2 (v (key "length" i)) (v (key "width" i)) := by
  have hk : ∀ k ∈ layerNumbers i, get s.num k = .ok (v k) := fun k h => get_some (hv k (mem_numbers hi h))
  obtain ⟨l, hl, h1, h2, h3⟩ := plain_layer (key "layer_" i) (v (key "theta_K" i)) (v (key "phi_K" i)) (v (key "Ms" i)) (v (key "K" i))
    (v (key "thickness" i)) (v (key "alpha" i)) g a
  refine ⟨(rawAnisotropy l (v (key "K" i)), rawResistance (v (key "length" i)) (v (key "width" i))), ?_, h1, h2, h3, ?_⟩
  · unfold createLayer
    rw [hk (key "theta_K" i) (by simp [layerNumbers]), hk (key "phi_K" i) (by simp [layerNumbers]), hk (key "Ms" i) (by simp [layerNumbers]),
      hk (key "thickness" i) (by simp [layerNumbers]), hk (key "alpha" i) (by simp [layerNumbers]), hk (key "K" i) (by simp [layerNumbers]),
      hk (key "length" i) (by simp [layerNumbers]), hk (key "width" i) (by simp [layerNumbers])]
    simp only [bind, Except.bind]
    unfold rawLayer at hl
    rw [hl]
    rfl
  · simp only [PageResistance, rawResistance, Scalar.ofSci_real_true, Scalar.ofNat_real]
    norm_num
    constructor <;> ring

/-! ### Couplings -/

/-- The couplings given from pair `i` on, as the front end leaves layer `n` of `N`. -/
noncomputable def coupledFrom (N i : ℕ) (J : ℕ → ℝ) (n : ℕ) (l : Layer ℝ) : Layer ℝ :=
  { l with
    IECDriverTop := if i ≤ n ∧ n + 1 < N then rawCoupling (J n) else l.IECDriverTop
    IECDriverBottom := if i < n ∧ n < N then rawCoupling (J (n - 1)) else l.IECDriverBottom }

theorem couple_all (s : Session ℝ) (J : ℕ → ℝ) (hJ : ∀ i, i + 1 < s.N → s.num (key "J" i) = some (J i)) (names : List String) (hn : names.Nodup)
    (hlen : names.length = s.N) (m i : ℕ) (hm : m + i = s.N) (j : Junction ℝ) (hj : j.layers.map Layer.id = names)
    (hreach : Reachable j) :
    ∃ k, couple s (names.drop i) i j = .ok () k ∧ Reachable k ∧ k = { j with layers := k.layers } ∧ k.layers.length = j.layers.length ∧
      ∀ n l, j.layers[n]? = some l → k.layers[n]? = some (coupledFrom s.N i J n l) := by
  induction m generalizing i j with
  | zero =>
    have e : names.drop i = [] := List.drop_eq_nil_iff.2 (by omega)
    refine ⟨j, by rw [e]; rfl, hreach, rfl, rfl, fun n l hl => ?_⟩
    rw [hl, coupledFrom, if_neg (by omega), if_neg (by omega)]
  | succ m ih =>
    have hi : i < names.length := by omega
    by_cases hlast : i + 1 = s.N
    · have e : names.drop i = [names[i]] := by
        rw [List.drop_eq_getElem_cons hi, List.drop_eq_nil_iff.2 (by omega)]
      refine ⟨j, by rw [e]; rfl, hreach, rfl, rfl, fun n l hl => ?_⟩
      rw [hl, coupledFrom, if_neg (by omega), if_neg (by omega)]
    · have hi1 : i + 1 < names.length := by omega
      have e : names.drop i = names[i] :: names.drop (i + 1) := List.drop_eq_getElem_cons hi
      have e1 : names.drop (i + 1) = names[i + 1] :: names.drop (i + 2) := List.drop_eq_getElem_cons hi1
      have hlj : j.layers.length = names.length := by rw [← hj, List.length_map]
      have hid : ∀ (n : ℕ) (l : Layer ℝ), j.layers[n]? = some l → names[n]? = some l.id := fun n l h => by rw [← hj, List.getElem?_map, h]; rfl
      have hidx : ∀ n k, k < names.length → names[n]? = names[k]? → n = k := fun n k hk h =>
        ((List.nodup_iff_getElem?_ne_getElem?.1 hn |> fun f => by
          by_contra hne
          rcases lt_or_gt_of_ne hne with h1 | h1
          · exact f n k h1 hk h
          · have : n < names.length := by
              by_contra h2
              rw [List.getElem?_eq_none (by omega), List.getElem?_eq_getElem hk] at h
              simp at h
            exact f k n h1 this h.symm))
      have hpair : PairAt j names[i] names[i + 1] i := by
        refine ⟨j.layers[i], j.layers[i + 1], List.getElem?_eq_getElem (by omega), List.getElem?_eq_getElem (by omega), Or.inl ⟨?_, ?_⟩⟩
        · have := hid i _ (List.getElem?_eq_getElem (by omega))
          rw [List.getElem?_eq_getElem hi] at this
          exact (Option.some.inj this).symm
        · have := hid (i + 1) _ (List.getElem?_eq_getElem (by omega))
          rw [List.getElem?_eq_getElem hi1] at this
          exact (Option.some.inj this).symm
      obtain ⟨k, hk, q, l, u, ⟨l', u', hl', hu', hp⟩, -, hl, hu, hkj, hkl, hkq, hkq1, hko⟩ :=
        (Junction.C23_adjacent j names[i] names[i + 1] ⟨i, hpair⟩).1 (rawCoupling (J i))
      have hq : q = i := by
        rcases hp with ⟨h1, -⟩ | ⟨h1, h2⟩
        · refine hidx q i hi ?_
          rw [hid q l' hl', List.getElem?_eq_getElem hi, h1]
        · have a1 : q = i + 1 := hidx q (i + 1) hi1 (by rw [hid q l' hl', List.getElem?_eq_getElem hi1, h1])
          have a2 : q + 1 = i := hidx (q + 1) i hi (by rw [hid (q + 1) u' hu', List.getElem?_eq_getElem hi, h2])
          omega
      subst hq
      have hkids : k.layers.map Layer.id = names := by
        rw [← hj]
        refine List.ext_getElem? fun n => ?_
        rw [List.getElem?_map, List.getElem?_map]
        by_cases h1 : n = q
        · subst h1
          rw [hkq, hl]
          rfl
        · by_cases h2 : n = q + 1
          · subst h2
            rw [hkq1, hu]
            rfl
          · rw [hko n h1 h2]
      have hkr : Reachable k := by
        obtain ⟨j0, cs, h0, h1⟩ := hreach
        refine ⟨j0, cs ++ [.iec names[q] names[q + 1] (rawCoupling (J q))], h0, ?_⟩
        have h2 : program (cs ++ [.iec names[q] names[q + 1] (rawCoupling (J q))]) j0 =
            (Call.exec (program cs j0) (.iec names[q] names[q + 1] (rawCoupling (J q)))).st := by
          simp only [program, List.foldl_append, List.foldl_cons, List.foldl_nil]
        rw [h2, ← h1]
        simp only [Call.exec, hk]
        rfl
      obtain ⟨k2, hk2, hr2, he2, hl2, hg2⟩ := ih (q + 1) (by omega) k hkids hkr
      refine ⟨k2, ?_, hr2, ?_, hl2.trans hkl, fun n x hx => ?_⟩
      · rw [e1] at hk2
        unfold rawCoupling at hk
        rw [e, e1, couple, get_some (hJ q (by omega))]
        dsimp only
        rw [hk, Out.bind_ok]
        exact hk2
      · rw [he2, hkj]
      · by_cases h1 : n = q
        · subst h1
          rw [hx] at hl
          obtain rfl := Option.some.inj hl
          rw [hg2 n _ hkq]
          simp only [coupledFrom]
          rw [if_neg (by omega), if_neg (by omega), if_pos (by omega), if_neg (by omega)]
        · by_cases h2 : n = q + 1
          · subst h2
            rw [hx] at hu
            obtain rfl := Option.some.inj hu
            rw [hg2 _ _ hkq1]
            simp only [coupledFrom]
            rw [if_neg (by omega : ¬ (q + 1 < q + 1 ∧ _)), if_pos (by omega : q < q + 1 ∧ q + 1 < s.N)]
            simp
          · rw [← hko n h1 h2] at hx
            rw [hg2 n x hx]
            have c1 : (q + 1 ≤ n ∧ n + 1 < s.N) ↔ (q ≤ n ∧ n + 1 < s.N) := by omega
            have c2 : (q + 1 < n ∧ n < s.N) ↔ (q < n ∧ n < s.N) := by omega
            simp only [coupledFrom, c1, c2]

/-- The value of a coupling: the entered number of µJ/m² in J/m². -/
theorem coupling_value (J t : ℝ) : (rawCoupling J).value t = J / 10 ^ 6 := by
  simp only [rawCoupling, ScalarDriver.constantDriver, ScalarDriver.value, Scalar.ofSci_real_true]
  norm_num
  ring

/-- **C100.** With all numbers of the page there (`v` are their values), the front end builds one layer for each entry, in order and with
distinct ids, every value in SI units, the magnetisation along the easy axis; neighbouring layers are coupled by the entered constants, the
lower layer's upward and the upper layer's downward, and no others; there is one set of resistance parameters for each layer. The junction
is one a client program can build. -/
theorem C100_junction (s : Session ℝ) (hN : 0 < s.N) (v : String → ℝ) (hv : ∀ k ∈ spectrumNumbers s.N, s.num k = some (v k))
    (g : ℕ → ℕ → ℝ) (a : ℕ → ℕ → Axis → ℕ → ℕ → ℝ) :
    ∃ j ps, prepareSimulation s g a = .ok (j, ps) ∧ Reachable j ∧ DistinctIds j ∧ j.layers.length = s.N ∧ ps.length = s.N ∧ j.log = [] ∧
      ∀ i < s.N, ∃ l r, j.layers[i]? = some l ∧ ps[i]? = some r ∧
        PageLayer l ("layer_" ++ toString i) (v (key "theta_K" i)) (v (key "phi_K" i)) (v (key "Ms" i)) (v (key "K" i)) (v (key "thickness" i))
          (v (key "alpha" i)) ∧
        (∀ t, l.IECDriverTop.value t = if i + 1 < s.N then v (key "J" i) / 10 ^ 6 else 0) ∧
        (∀ t, l.IECDriverBottom.value t = if 0 < i then v (key "J" (i - 1)) / 10 ^ 6 else 0) ∧
        PageResistance r (v (key "length" i)) (v (key "width" i)) := by
  obtain ⟨made, hm, hlen, hget⟩ := collect_exists (f := fun i => createLayer s i (g i) (a i)) (l := List.range s.N)
    (P := fun i p => PageLayer p.1 (key "layer_" i) (v (key "theta_K" i)) (v (key "phi_K" i)) (v (key "Ms" i)) (v (key "K" i))
      (v (key "thickness" i)) (v (key "alpha" i)) ∧ p.1.IECDriverTop = .null ∧ p.1.IECDriverBottom = .null ∧
      PageResistance p.2 (v (key "length" i)) (v (key "width" i)))
    fun i hi => createLayer_page s v hv i (by simpa using hi) (g i) (a i)
  rw [List.length_range] at hlen
  have hget' : ∀ i < s.N, ∃ p, made[i]? = some p ∧ PageLayer p.1 (key "layer_" i) (v (key "theta_K" i)) (v (key "phi_K" i)) (v (key "Ms" i))
      (v (key "K" i)) (v (key "thickness" i)) (v (key "alpha" i)) ∧ p.1.IECDriverTop = .null ∧ p.1.IECDriverBottom = .null ∧
      PageResistance p.2 (v (key "length" i)) (v (key "width" i)) := by
    intro i hi
    obtain ⟨p, h1, -, h2⟩ := hget i i (by simp [hi])
    exact ⟨p, h1, h2⟩
  have hids : (made.map (·.1)).map Layer.id = (List.range s.N).map (key "layer_") := by
    refine List.ext_getElem? fun n => ?_
    by_cases hn : n < s.N
    · obtain ⟨p, h1, h2, -⟩ := hget' n hn
      simp [h1, h2.id, hn]
    · rw [List.getElem?_eq_none (by simp; omega), List.getElem?_eq_none (by simp; omega)]
  have hnd : ((List.range s.N).map (key "layer_")).Nodup := List.Nodup.map (fun _ _ h => key_inj h) List.nodup_range
  obtain ⟨j0, hj0, hl0, hlog⟩ : ∃ j0, Junction.plain (made.map (·.1)) = .ok j0 ∧ j0.layers = made.map (·.1) ∧ j0.log = [] := by
    refine ⟨_, by rw [Junction.plain, if_neg (by rw [List.length_map]; omega)], rfl, rfl⟩
  have hr0 : Reachable j0 := ⟨j0, [], Or.inl ⟨_, hj0⟩, rfl⟩
  obtain ⟨k, hk, hkr, hke, hkl, hkg⟩ := couple_all s (fun i => v (key "J" i)) (fun i hi => hv _ (mem_coupling hi)) _ hnd (by simp) s.N 0 (by omega)
    j0 (by rw [hl0]; exact hids) hr0
  have hkids : k.layers.map Layer.id = (List.range s.N).map (key "layer_") := by
    rw [← hids, ← hl0]
    refine List.ext_getElem? fun n => ?_
    rcases hn : j0.layers[n]? with _ | l
    · rw [List.getElem?_map, List.getElem?_map, hn, List.getElem?_eq_none (by rw [hkl]; exact List.getElem?_eq_none_iff.1 hn)]
    · rw [List.getElem?_map, List.getElem?_map, hn, hkg n l hn]
      rfl
  refine ⟨k, made.map (·.2), ?_, hkr, by rw [DistinctIds, hkids]; exact hnd, by rw [hkl, hl0]; simpa using hlen, by simpa using hlen,
    by rw [hke]; exact hlog, fun i hi => ?_⟩
  · unfold prepareSimulation
    rw [hm]
    simp only [bind, Except.bind]
    rw [hj0]
    simp only
    rw [show (made.map (·.1)).map (·.id) = ((List.range s.N).map (key "layer_")).drop 0 from hids, hk]
    rfl
  · obtain ⟨p, h1, h2, h3, h4, h5⟩ := hget' i hi
    have hz : ∀ t : ℝ, ScalarDriver.null.value t = (0 : ℝ) := fun t => by simp [ScalarDriver.null, ScalarDriver.value]
    refine ⟨_, p.2, hkg i p.1 (by rw [hl0, List.getElem?_map, h1]; rfl), by rw [List.getElem?_map, h1]; rfl, h2.coupled _ _, fun t => ?_, fun t => ?_, h5⟩
    · simp only [coupledFrom, Nat.zero_le, true_and]
      split
      · exact coupling_value _ _
      · rw [h3]; exact hz t
    · simp only [coupledFrom, hi, and_true]
      split
      · exact coupling_value _ _
      · rw [h4]; exact hz t

/-! ### The procedures -/

/-- The spectrum page with its values: numbers, integers, selections and check boxes. -/
structure Filled (s : Session ℝ) (v : String → ℝ) (c : String → ℕ) (t : String → String) (f : String → Bool) : Prop where
  layers : 0 < s.N
  num : ∀ k ∈ spectrumNumbers s.N, s.num k = some (v k)
  count : ∀ k ∈ spectrumCounts, s.count k = some (c k)
  text : ∀ k ∈ spectrumTexts s.N, s.text k = some (t k)
  flag : ∀ k ∈ spectrumFlags s.N, s.flag k = some (f k)
  axis : t "H_axis" ∈ axisNames
  pulse : t "Hoeaxis" ∈ ["x", "y", "z"]
  excitation : t "Hoex" ∈ ["x", "y", "z"]

/-- The spectrum page as it is opened, with `N` layers. -/
noncomputable def opened (N : ℕ) : Session ℝ where
  N := N
  num k := if k ∈ spectrumNumbers N then some 1 else none
  count k := if k ∈ spectrumCounts then some 16 else none
  text k := if k ∈ spectrumTexts N then some (if k = "H_axis" ∨ k = "Hoeaxis" ∨ k = "Hoex" then "y" else "1") else none
  flag k := if k ∈ spectrumFlags N then some false else none

/-- There is such a page. -/
theorem opened_filled (N : ℕ) (hN : 0 < N) :
    Filled (opened N) (fun _ => 1) (fun _ => 16) (fun k => if k = "H_axis" ∨ k = "Hoeaxis" ∨ k = "Hoex" then "y" else "1") (fun _ => false) where
  layers := hN
  num k hk := if_pos hk
  count k hk := if_pos hk
  text k hk := if_pos hk
  flag k hk := if_pos hk
  axis := by simp [axisNames]
  pulse := by simp
  excitation := by simp

theorem scan_along {a : String} (ha : a ∈ axisNames) {θ φ : ℝ} (e : axisAngles a = .ok (θ, φ)) (x y : ℝ) (n : ℕ) (back : Bool) (i : ℕ) (w : CVec ℝ)
    (hw : (FieldScan.amplitudeScan x y n θ φ back).2[i]? = some w) :
    ∃ h, (FieldScan.amplitudeScan x y n θ φ back).1[i]? = some h ∧ Pointing w (named a) h := by
  obtain ⟨θ', φ', e', hp⟩ := (C99_angles a).1 ha
  rw [e] at e'
  obtain ⟨rfl, rfl⟩ : θ = θ' ∧ φ = φ' := by simpa using e'
  obtain ⟨h, h1, h2, -⟩ := (FieldScan.C49_amplitude x y n θ φ).2.2 back i w hw
  exact ⟨h, h1, by rw [h2]; exact hp h⟩

section literals
variable {T : Type} [Scalar T]

/-- The arguments the front end gives to the pulse procedure. -/
def rawPimm (dt : T) (params : List (Proc.ResParams T)) (axis : Axis) (mag duration : T) (maxFreq : ℕ) (resFn : Proc.ResFn T) : Proc.PimmArgs T :=
  { dt := dt, params := params, axis := axis, excitation := mag * 1e3, pulse := 3, duration := duration, wait := 4e-9
    maxFrequency := Scalar.lit (maxFreq : ℚ) * 1e9, resFn := resFn, disturbance := 1e-6, takeLast := 100, full := false, static := false }

/-- kA/m in A/m -/
def rawKilo (x : T) : T := x * 1e3

/-- ns in s -/
def rawNano (n : ℕ) : T := Scalar.lit (n : ℚ) * 1e-9

end literals

theorem kilo_eq (x : ℝ) : rawKilo x = x * 1000 := by
  simp only [rawKilo, Scalar.ofSci_real_false]
  norm_num

theorem nano_eq (n : ℕ) : (rawNano n : ℝ) = n / 10 ^ 9 := by
  simp only [rawNano, Scalar.ofSci_real_true, Scalar.lit_real]
  norm_num
  ring

/-- **C99, C100.** What the pulse measurement of the page is called with: as many fields as steps, equally spaced from the lower to the upper
bound in A/m, every field vector along the selected axis; the junction of the page; the selected pulse axis; times in s, excitation in A/m,
cut-off in Hz. -/
theorem C100_pimm {s : Session ℝ} {v : String → ℝ} {c : String → ℕ} {t : String → String} {f : String → Bool} (h : Filled s v c t f)
    (resFn : Proc.ResFn ℝ) (g : ℕ → ℕ → ℝ) (a : ℕ → ℕ → Axis → ℕ → ℕ → ℝ) :
    ∃ scan vecs j ps args, simulatePimm s resFn g a = .ok (scan, vecs, j, args) ∧ prepareSimulation s g a = .ok (j, ps) ∧
      scan.length = c "Hsteps" ∧ vecs.length = scan.length ∧
      (∀ i < c "Hsteps", scan[i]? = some (if c "Hsteps" = 1 then v "Hmin" * 1000 else spaced (v "Hmin" * 1000) (v "Hmax" * 1000) (c "Hsteps") i)) ∧
      (∀ (i : ℕ) (w : CVec ℝ), vecs[i]? = some w → ∃ x, scan[i]? = some x ∧ Pointing w (named (t "H_axis")) x) ∧
      args.params = ps ∧ getAxis (t "Hoeaxis") = .ok args.axis ∧ args.dt = v "int_step" ∧ args.duration = c "sim_time" / 10 ^ 9 ∧
      args.excitation = v "Hoe_mag" * 1000 ∧ args.maxFrequency = c "max_freq" * 10 ^ 9 ∧ args.wait = 4 / 10 ^ 9 ∧ args.resFn = resFn := by
  obtain ⟨θ, φ, e, -⟩ := (C99_angles (t "H_axis")).1 h.axis
  obtain ⟨j, ps, hj, -⟩ := C100_junction s h.layers v h.num g a
  obtain ⟨ax, hax, -⟩ := (C99_excitation (t "Hoeaxis")).1 h.pulse
  have hn : ∀ k ∈ ["Hmin", "Hmax", "int_step", "fmin", "fmax", "fstep", "Hoex_mag", "Hoe_mag"], get s.num k = .ok (v k) := fun k hk =>
    get_some (h.num k (List.mem_append_right _ hk))
  have hc : ∀ k ∈ spectrumCounts, get s.count k = .ok (c k) := fun k hk => get_some (h.count k hk)
  have ht : ∀ k ∈ ["H_axis", "res_type", "Hoex", "Hoeaxis"], get s.text k = .ok (t k) := fun k hk =>
    get_some (h.text k (List.mem_append_left _ hk))
  have hs : simulatePimm s resFn g a = .ok
      ((FieldScan.amplitudeScan (rawKilo (v "Hmin")) (rawKilo (v "Hmax")) (c "Hsteps") θ φ false).1,
       (FieldScan.amplitudeScan (rawKilo (v "Hmin")) (rawKilo (v "Hmax")) (c "Hsteps") θ φ false).2, j,
       rawPimm (v "int_step") ps ax (v "Hoe_mag") (rawNano (c "sim_time")) (c "max_freq") resFn) := by
    unfold simulatePimm
    rw [ht "H_axis" (by simp), hn "Hmin" (by simp), hn "Hmax" (by simp), hc "Hsteps" (by simp [spectrumCounts]), hn "int_step" (by simp),
      hc "sim_time" (by simp [spectrumCounts])]
    simp only [bind, Except.bind]
    unfold pimmCall
    rw [e]
    simp only [bind, Except.bind]
    rw [hj, ht "Hoeaxis" (by simp)]
    simp only
    rw [hax, hn "Hoe_mag" (by simp), hc "max_freq" (by simp [spectrumCounts])]
    rfl
  obtain ⟨l1, l2, l3⟩ := FieldScan.C49_amplitude (rawKilo (v "Hmin")) (rawKilo (v "Hmax")) (c "Hsteps") θ φ
  refine ⟨_, _, j, ps, _, hs, hj, ?_, ?_, ?_, ?_, rfl, hax, rfl, nano_eq _, kilo_eq _, ?_, ?_, rfl⟩
  · rw [l1, (FieldScan.C49_span _ _ _).1]
  · rw [l1, l2, List.length_map]
  · intro i hi
    rw [l1, (FieldScan.C49_span _ _ _).2.1 i hi, kilo_eq, kilo_eq]
  · exact fun i w hw => scan_along h.axis e _ _ _ false i w hw
  · simp only [rawPimm, Scalar.ofSci_real_false, Scalar.lit_real]
    norm_num
  · simp only [rawPimm, Scalar.ofSci_real_true, Scalar.lit_real]
    norm_num

/-- **C100.** The page offers measurements from 1 ns on. The pulse procedure waits 4 ns, so shorter ones end in a `ValueError`. -/
theorem C100_short_refused {s : Session ℝ} {v : String → ℝ} {c : String → ℕ} {t : String → String} {f : String → Bool} (h : Filled s v c t f)
    (hs : c "sim_time" < 4) (resFn : Proc.ResFn ℝ) (g : ℕ → ℕ → ℝ) (a : ℕ → ℕ → Axis → ℕ → ℕ → ℝ) (F : List ℝ → List ℝ) (noise : ℕ → ℕ → CVec ℝ) :
    ∃ scan vecs j args, simulatePimm s resFn g a = .ok (scan, vecs, j, args) ∧ Proc.pimm F args noise vecs j = .fail .valueError j := by
  obtain ⟨scan, vecs, j, ps, args, h1, -, -, -, -, -, -, -, -, h2, -, -, h3, -⟩ := C100_pimm h resFn g a
  refine ⟨scan, vecs, j, args, h1, (Proc.C87_refused F args noise vecs j).1 ?_⟩
  rw [h2, h3]
  have : (c "sim_time" : ℝ) < 4 := by exact_mod_cast hs
  linarith

/-- **C99, C100.** The same for the spin-diode measurement of the page; its excitation is entered in A/m. -/
theorem C100_vsd {s : Session ℝ} {v : String → ℝ} {c : String → ℕ} {t : String → String} {f : String → Bool} (h : Filled s v c t f)
    (resFn : Proc.ResFn ℝ) (butter : ℝ → Except Err (List ℝ × List ℝ)) (g : ℕ → ℕ → ℝ) (a : ℕ → ℕ → Axis → ℕ → ℕ → ℝ) :
    ∃ scan vecs j ps args, simulateVsd s resFn butter g a = .ok (scan, vecs, j, args) ∧ prepareSimulation s g a = .ok (j, ps) ∧
      scan.length = c "Hsteps" ∧ vecs.length = scan.length ∧
      (∀ i < c "Hsteps", scan[i]? = some (if c "Hsteps" = 1 then v "Hmin" * 1000 else spaced (v "Hmin" * 1000) (v "Hmax" * 1000) (c "Hsteps") i)) ∧
      (∀ (i : ℕ) (w : CVec ℝ), vecs[i]? = some w → ∃ x, scan[i]? = some x ∧ Pointing w (named (t "H_axis")) x) ∧
      args.params = ps ∧ getAxis (t "Hoex") = .ok args.axis ∧ args.dt = v "int_step" ∧ args.duration = c "sim_time" / 10 ^ 9 ∧
      args.excitation = v "Hoex_mag" ∧ args.rtype = t "res_type" ∧ args.resFn = resFn ∧ args.butter = butter := by
  obtain ⟨θ, φ, e, -⟩ := (C99_angles (t "H_axis")).1 h.axis
  obtain ⟨j, ps, hj, -⟩ := C100_junction s h.layers v h.num g a
  obtain ⟨ax, hax, -⟩ := (C99_excitation (t "Hoex")).1 h.excitation
  have hn : ∀ k ∈ ["Hmin", "Hmax", "int_step", "fmin", "fmax", "fstep", "Hoex_mag", "Hoe_mag"], get s.num k = .ok (v k) := fun k hk =>
    get_some (h.num k (List.mem_append_right _ hk))
  have hc : ∀ k ∈ spectrumCounts, get s.count k = .ok (c k) := fun k hk => get_some (h.count k hk)
  have ht : ∀ k ∈ ["H_axis", "res_type", "Hoex", "Hoeaxis"], get s.text k = .ok (t k) := fun k hk =>
    get_some (h.text k (List.mem_append_left _ hk))
  obtain ⟨args, hs, hargs⟩ : ∃ args, simulateVsd s resFn butter g a = .ok
      ((FieldScan.amplitudeScan (rawKilo (v "Hmin")) (rawKilo (v "Hmax")) (c "Hsteps") θ φ false).1,
       (FieldScan.amplitudeScan (rawKilo (v "Hmin")) (rawKilo (v "Hmax")) (c "Hsteps") θ φ false).2, j, args) ∧
      args.params = ps ∧ getAxis (t "Hoex") = .ok args.axis ∧ args.dt = v "int_step" ∧ args.duration = rawNano (c "sim_time") ∧
      args.excitation = v "Hoex_mag" ∧ args.rtype = t "res_type" ∧ args.resFn = resFn ∧ args.butter = butter := by
    unfold simulateVsd
    rw [ht "H_axis" (by simp), hn "Hmin" (by simp), hn "Hmax" (by simp), hc "Hsteps" (by simp [spectrumCounts]), hn "int_step" (by simp),
      hc "sim_time" (by simp [spectrumCounts]), ht "Hoex" (by simp), ht "res_type" (by simp), hn "Hoex_mag" (by simp)]
    simp only [bind, Except.bind]
    unfold vsdCall
    rw [e]
    simp only [bind, Except.bind]
    rw [hj]
    simp only
    rw [hax]
    exact ⟨_, rfl, rfl, rfl, rfl, rfl, rfl, rfl, rfl, rfl⟩
  obtain ⟨l1, l2, l3⟩ := FieldScan.C49_amplitude (rawKilo (v "Hmin")) (rawKilo (v "Hmax")) (c "Hsteps") θ φ
  rw [nano_eq] at hargs
  refine ⟨_, _, j, ps, args, hs, hj, ?_, ?_, ?_, ?_, hargs⟩
  · rw [l1, (FieldScan.C49_span _ _ _).1]
  · rw [l1, l2, List.length_map]
  · intro i hi
    rw [l1, (FieldScan.C49_span _ _ _).2.1 i hi, kilo_eq, kilo_eq]
  · exact fun i w hw => scan_along h.axis e _ _ _ false i w hw

end View
