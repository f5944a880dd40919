import Verif.Model.Stack
import Verif.Props.Vectors
import Verif.Props.Drivers2
import Verif.Props.Setters
import Verif.Props.Ticks
import Verif.Props.Runs

/-! # C02, C08, C09, C34, C47: setters and small operations not met elsewhere -/

set_option linter.unusedSectionVars false
set_option linter.unusedSimpArgs false

/-! ## C02 -/

namespace CVec

/-- C02: a component setter changes its component and no other, and `tolist` shows it. -/
theorem C02_setters {T : Type} [Scalar T] (v : CVec T) (a : T) :
    (v.setX a).toList = [a, v.get 1, v.get 2] ∧ (v.setY a).toList = [v.get 0, a, v.get 2] ∧ (v.setZ a).toList = [v.get 0, v.get 1, a] :=
  ⟨rfl, rfl, rfl⟩

/-- C02: adding a number adds it to every component; adding and subtracting the same number gives the vector back. -/
theorem C02_addScalar (v : CVec ℝ) (s : ℝ) : (v.addScalar s).toList = v.toList.map (· + s) ∧ (v.addScalar s).addScalar (-s) = v := by
  refine ⟨rfl, ?_⟩
  ext <;> simp [addScalar]

end CVec

/-! ## C08 -/

namespace ScalarDriver

/-- C08: setting the offset shifts the signal by the change of the offset, at every time and for every kind of driver. -/
theorem C08_offset (d : ScalarDriver ℝ) (c t : ℝ) : (d.setConstantValue c).value t = d.value t + (c - d.constantValue) := by
  obtain ⟨u, c0, am, fr, ph, pe, cy, ts, te, ed, st⟩ := d
  cases u <;> simp only [value, setConstantValue]
  case halfsine =>
    by_cases h : am * Real.sin (2 * Real.pi * t * fr + ph) ≤ 0
    · simp [h]; ring
    · simp [h]
  all_goals ring

example : ((constantDriver (1 : ℝ)).setConstantValue 5).value 0 = 5 := by rw [C08_offset]; simp [value, constantDriver]

end ScalarDriver

/-! ## C09 -/

namespace AxialDriver

/-- C09: three numbers give the constant driver of the vector they make up. -/
theorem C09_scalars {T : Type} [Scalar T] (x y z t : T) : (ofScalars x y z).value t = ⟨x, y, z⟩ := rfl

/-- helper -/
theorem cast_small {a : ℝ} (h0 : 0 ≤ a) (h2 : a < 2) : ∃ k ≤ 1, Scalar.toUInt a = some k ∧ (k = 0 ↔ a < 1) := by
  refine ⟨⌊a⌋₊, ?_, Junction.toUInt_floor a h0 (by linarith), ?_⟩
  · have : ⌊a⌋₊ < 2 := (Nat.floor_lt h0).2 (by exact_mod_cast h2)
    omega
  · rw [Nat.floor_eq_zero]

/-- C09: a mask given as a vector with entries from 0 up to (not including) 2 blanks exactly the axes whose entry is below 1. -/
theorem C09_mask_vector (d : AxialDriver ℝ) (m : CVec ℝ) (hx : 0 ≤ m.x ∧ m.x < 2) (hy : 0 ≤ m.y ∧ m.y < 2) (hz : 0 ≤ m.z ∧ m.z < 2) :
    (d.applyMaskVec m).1 = .ok () ∧ ∀ t, (d.applyMaskVec m).2.value t =
      ⟨if m.x < 1 then 0 else (d.value t).x, if m.y < 1 then 0 else (d.value t).y, if m.z < 1 then 0 else (d.value t).z⟩ := by
  obtain ⟨a, a1, a2, a3⟩ := cast_small hx.1 hx.2
  obtain ⟨b, b1, b2, b3⟩ := cast_small hy.1 hy.2
  obtain ⟨c, c1, c2, c3⟩ := cast_small hz.1 hz.2
  unfold applyMaskVec
  rw [a2, b2, c2]
  obtain ⟨h1, h2⟩ := C09_mask_binary d a b c a1 b1 c1
  refine ⟨h1, fun t => ?_⟩
  rw [h2 t]
  simp only [a3, b3, c3, Scalar.ofNat_real, Nat.cast_zero]

/-- C09: a mask entry of 2 or more raises. -/
theorem C09_mask_vector_error (d : AxialDriver ℝ) (m : CVec ℝ) (h : ∀ a ∈ m.toList, 0 ≤ a ∧ a < 4294967296) :
    (d.applyMaskVec m).1 = .error .badMask ↔ ∃ a ∈ m.toList, 2 ≤ a := by
  have cast : ∀ a : ℝ, 0 ≤ a → a < 4294967296 → ∃ k, Scalar.toUInt a = some k ∧ (2 ≤ k ↔ 2 ≤ a) := by
    intro a h0 h1
    refine ⟨⌊a⌋₊, Junction.toUInt_floor a h0 h1, ?_⟩
    rw [Nat.le_floor_iff h0]
    norm_num
  simp only [CVec.toList, List.mem_cons, List.not_mem_nil, or_false, forall_eq_or_imp, forall_eq] at h
  obtain ⟨a, a1, a2⟩ := cast _ h.1.1 h.1.2
  obtain ⟨b, b1, b2⟩ := cast _ h.2.1.1 h.2.1.2
  obtain ⟨c, c1, c2⟩ := cast _ h.2.2.1 h.2.2.2
  unfold applyMaskVec
  rw [a1, b1, c1]
  simp only [C09_mask_error_iff, a2, b2, c2, CVec.toList, List.mem_cons, List.not_mem_nil, or_false, exists_eq_or_imp, exists_eq_left]

example : (0 : ℝ) ≤ 0.7 ∧ (0.7 : ℝ) < 2 ∧ ∃ a ∈ (CVec.mk (0 : ℝ) 3 1).toList, 2 ≤ a := by
  refine ⟨by norm_num, by norm_num, 3, by simp [CVec.toList], by norm_num⟩

end AxialDriver

/-! ## C34 -/

namespace Stack
open Spec

/-- C34: a magnetisation that is set in one junction of a stack is read back normalised; the other junctions are untouched. A zero magnetisation
and an unknown layer are refused and change nothing. -/
theorem C34_magnetisation (s : Stack ℝ) {i : Nat} {j : Junction ℝ} (hj : s.junctions[i]? = some j) (id : String) (hall : id ≠ "all") (m : CVec ℝ) :
    (m ≠ .zero → (∃ l ∈ j.layers, l.id = id) → ∃ s', s.setMagnetisation i id m = .ok () s' ∧ s'.getMagnetisation i id = .ok m.normalize ∧
      s'.junctions.length = s.junctions.length ∧ ∀ k, k ≠ i → s'.junctions[k]? = s.junctions[k]?) ∧
    ((∀ l ∈ j.layers, l.id ≠ id) → s.setMagnetisation i id m = .fail .layerNotFound s ∧ s.getMagnetisation i id = .error .layerNotFound) := by
  have hi : i < s.junctions.length := (List.getElem?_eq_some_iff.1 hj).1
  have hji : s.junctions[i] = j := (List.getElem?_eq_some_iff.1 hj).2
  refine ⟨fun hm hl => ?_, fun hl => ?_⟩
  · have hf : (fun l : Layer ℝ => l.setMagnetisation m) = Junction.pureSetter fun l => l.setMag m.normalize := by
      funext l
      have : m.length ≠ 0 := by rwa [Ne, CVec.length_eq_zero]
      unfold Layer.setMagnetisation Junction.pureSetter
      rw [if_neg (by simpa using this)]
    have hA : ∃ l ∈ j.layers, Addressed id l := by obtain ⟨l, h1, h2⟩ := hl; exact ⟨l, h1, .inl h2⟩
    have hset : j.setLayerMagnetisation id m = .ok () (mapAddressed id (fun l => l.setMag m.normalize) j) := by
      unfold Junction.setLayerMagnetisation
      rw [hf, Junction.layerSetter_pure, if_pos hA]
    refine ⟨{ s with junctions := s.junctions.set i (mapAddressed id (fun l => l.setMag m.normalize) j) }, ?_, ?_, by simp, ?_⟩
    · unfold setMagnetisation onJunction
      rw [hj]
      dsimp only
      rw [hset]
      rfl
    · unfold getMagnetisation
      dsimp only
      rw [List.getElem?_set_self hi]
      dsimp only
      obtain ⟨l, h1, h2⟩ := hl
      have hfind : ∃ l', (mapAddressed id (fun l => l.setMag m.normalize) j).layers.find? (fun l => l.id == id) = some l' := by
        rw [← Option.isSome_iff_exists, List.find?_isSome]
        refine ⟨_, List.mem_map_of_mem (f := _) h1, ?_⟩
        dsimp only
        split <;> simpa [Layer.setMag] using h2
      obtain ⟨l', hl'⟩ := hfind
      have hid : l'.id = id := by simpa using List.find?_some hl'
      have hmag : l'.mag = m.normalize := by
        obtain ⟨l0, h0, rfl⟩ := List.mem_map.1 (List.mem_of_find?_eq_some hl')
        dsimp only at hid ⊢
        by_cases hA0 : Addressed id l0
        · rw [if_pos hA0]; rfl
        · rw [if_neg hA0] at hid; exact absurd (Or.inl hid) hA0
      unfold Junction.getLayerMagnetisation Junction.getLayer
      rw [hl']
      simp only [hmag]
    · intro k hk
      dsimp only
      rw [List.getElem?_set_ne (Ne.symm hk)]
  · have h1 := Junction.C21_not_found j id (.magnetisation id m) rfl hall hl
    have h2 := ((Junction.C21_getters j id).2.2.1 hl).2.1
    refine ⟨?_, ?_⟩
    · unfold setMagnetisation onJunction
      rw [hj]
      dsimp only
      rw [show j.setLayerMagnetisation id m = .fail .layerNotFound j from h1]
      simp only [Out.fail]
      congr
      rw [← hji, List.set_getElem_self]
    · unfold getMagnetisation
      rw [hj]
      exact h2

end Stack

/-! ## C47 -/

namespace VectorAlphaNoise

/-- C47: the scalar `tick` of noise along x returns the x component of what `tickVector` would return; noise along another axis gives zero. -/
theorem C47_scalar {B : Nat} {scale : ℝ} {axis : Axis} {sx sy sz : Nat → Nat → ℝ} {v : VectorAlphaNoise ℝ} (h : mk' B scale axis sx sy sz = .ok v)
    (ha : axis ≠ .all) : v.tick.1 = v.tickVector.1.x ∧ v.tick.2.cx = v.tickVector.2.cx := by
  refine ⟨?_, rfl⟩
  have hn : v.normalized = false := by
    have hB := size_pos h
    cases axis <;> simp [mk', BufferedAlphaNoise.mk', hB, bind, Except.bind] at h ha <;> subst h <;> rfl
  simp [tick, tickVector, hn]

example : ∃ v : VectorAlphaNoise ℝ, mk' (T := ℝ) 4 2 .xaxis (fun _ i => i + 3) (fun _ _ => 0) (fun _ _ => 0) = .ok v ∧ v.tick.1 = 6 := by
  refine ⟨_, rfl, ?_⟩
  simp [tick, Ticker.tick, BufferedAlphaNoise.tick, BufferedAlphaNoise.fillBuffer]
  norm_num

end VectorAlphaNoise
