import Verif.Model.Junction
import Verif.Lemmas.Vec

/-!
Closed forms of the layer functions: what they return and which members they write. Helper definitions and
lemmas only; the property files never state a claim through them.
-/

set_option linter.unusedSectionVars false

namespace CVec
variable {T : Type} [Scalar T]
/-- componentwise division without the check -/
def divU (v : CVec T) (s : T) : CVec T := ⟨v.x / s, v.y / s, v.z / s⟩

theorem div_ok (v : CVec T) {s : T} (h : Scalar.eqb s 0 = false) : v.div s = .ok (v.divU s) := by
  simp [div, h, divU]
theorem div_err (v : CVec T) {s : T} (h : Scalar.eqb s 0 = true) : v.div s = .error .divZero := by
  simp [div, h]
end CVec

namespace Layer
variable {T : Type} [Scalar T]

/-- the layer has a non-zero areal moment, so exchange fields can be computed -/
def Guard (l : Layer T) : Prop := Scalar.eqb (l.Ms * l.thickness) 0 = false

def iecV (l : Layer T) (J J2 : T) (m c : CVec T) : CVec T :=
  (c * (J + 2 * J2 * c.dot m)).divU (l.Ms * l.thickness)

def idmiV (l : Layer T) (D c : CVec T) : CVec T :=
  (⟨D.dot ⟨0, -c.z, c.y⟩, D.dot ⟨c.z, 0, -c.x⟩, D.dot ⟨-c.y, c.x, 0⟩⟩ : CVec T).divU (l.Ms * l.thickness)

def heffV (l : Layer T) (t : T) (m b a dip fl : CVec T) : CVec T :=
  l.externalFieldDriver.value t + l.anisotropyField (l.anisotropyDriver.value t) m
    + (l.iecV (l.IECDriverBottom.value t) (l.IECQuadDriverBottom.value t) m b
       + l.iecV (l.IECDriverTop.value t) (l.IECQuadDriverTop.value t) m a)
    + (l.idmiV (l.IDMIDriverBottom.value t) b + l.idmiV (l.IDMIDriverTop.value t) a)
    + l.HoeDriver.value t + l.HdmiDriver.value t + fl
    - Tensor.interaction m l.demagTensor l.Ms - dip + l.HreservedDriver.value t

def dipV (l : Layer T) (b a : CVec T) : CVec T :=
  Tensor.interaction b l.dipoleBottom l.Ms + Tensor.interaction a l.dipoleTop l.Ms

def llgDV (l : Layer T) (t : T) (m b a dip : CVec T) : CVec T :=
  (l.solveLLG t m b a (l.heffV t m b a dip .zero)).1

def llgV (l : Layer T) (t : T) (m b a : CVec T) : CVec T := l.llgDV t m b a (l.dipV b a)

@[simp] theorem setCache_setCache (l : Layer T) (c d : LayerLog T) : (l.setCache c).setCache d = l.setCache d := rfl
theorem setCache_self (l : Layer T) : l.setCache l.cache = l := rfl

theorem iec_ok (l : Layer T) (J J2 : T) (m c : CVec T) (h : l.Guard) : l.iec J J2 m c = .ok (l.iecV J J2 m c) :=
  CVec.div_ok _ h
theorem idmi_ok (l : Layer T) (D c : CVec T) (h : l.Guard) : l.idmi D c = .ok (l.idmiV D c) := CVec.div_ok _ h
theorem iec_err (l : Layer T) (J J2 : T) (m c : CVec T) (h : ¬ l.Guard) : l.iec J J2 m c = .error .divZero :=
  CVec.div_err _ (by simpa [Guard] using h)

theorem calculateIEC_ok (l : Layer T) (t : T) (m b a : CVec T) (h : l.Guard) :
    ∃ c, l.calculateIEC t m b a =
      .ok (l.iecV (l.IECDriverBottom.value t) (l.IECQuadDriverBottom.value t) m b
       + l.iecV (l.IECDriverTop.value t) (l.IECQuadDriverTop.value t) m a) (l.setCache c) := by
  simp only [calculateIEC, iec_ok _ _ _ _ _ h]; exact ⟨_, rfl⟩

theorem calculateIEC_err (l : Layer T) (t : T) (m b a : CVec T) (h : ¬ l.Guard) :
    ∃ c, l.calculateIEC t m b a = .fail .divZero (l.setCache c) := by
  simp only [calculateIEC, iec_err _ _ _ _ _ h]; exact ⟨_, rfl⟩

theorem calculateIDMI_ok (l : Layer T) (t : T) (b a : CVec T) (h : l.Guard) :
    l.calculateIDMI t b a = .ok (l.idmiV (l.IDMIDriverBottom.value t) b + l.idmiV (l.IDMIDriverTop.value t) a) := by
  simp only [calculateIDMI, idmi_ok _ _ _ h]

theorem heffD_ok (l : Layer T) (t : T) (m b a dip fl : CVec T) (h : l.Guard) :
    ∃ c, l.calculateHeffDipoleInjection t m b a dip fl = .ok (l.heffV t m b a dip fl) (l.setCache c) := by
  simp only [calculateHeffDipoleInjection]
  generalize hc0 : ({ l.cache with Hext := _, Hoe := _, Hdemag := _ } : LayerLog T) = c0
  obtain ⟨c1, h1⟩ := (l.setCache c0).calculateIEC_ok t m b a h
  simp only [h1, Out.bind_ok]
  generalize hc2 : ({ ((l.setCache c0).setCache c1).cache with HIEC := _ } : LayerLog T) = c2
  simp only [setCache_setCache]
  have h2 : (l.setCache c2).calculateIDMI t b a = _ := calculateIDMI_ok (l.setCache c2) t b a h
  simp only [h2]
  exact ⟨_, congrArg₂ Out.ok rfl rfl⟩

theorem heffD_err (l : Layer T) (t : T) (m b a dip fl : CVec T) (h : ¬ l.Guard) :
    ∃ c, l.calculateHeffDipoleInjection t m b a dip fl = .fail .divZero (l.setCache c) := by
  simp only [calculateHeffDipoleInjection]
  generalize hc0 : ({ l.cache with Hext := _, Hoe := _, Hdemag := _ } : LayerLog T) = c0
  obtain ⟨c1, h1⟩ := (l.setCache c0).calculateIEC_err t m b a h
  simp only [h1, Out.bind_fail]
  exact ⟨_, rfl⟩

theorem heff_ok (l : Layer T) (t : T) (m b a fl : CVec T) (h : l.Guard) :
    ∃ c, l.calculateHeff t m b a fl = .ok (l.heffV t m b a (l.dipV b a) fl) (l.setCache c) := by
  simp only [calculateHeff]
  obtain ⟨c, hc⟩ := heffD_ok (l.setCache { l.cache with Hdipole := l.dipV b a }) t m b a (l.dipV b a) fl h
  exact ⟨c, hc⟩

theorem heff_err (l : Layer T) (t : T) (m b a fl : CVec T) (h : ¬ l.Guard) :
    ∃ c, l.calculateHeff t m b a fl = .fail .divZero (l.setCache c) := by
  simp only [calculateHeff]
  obtain ⟨c, hc⟩ := heffD_err (l.setCache { l.cache with Hdipole := l.dipV b a }) t m b a (l.dipV b a) fl h
  exact ⟨c, hc⟩

/-- `solveLLG` writes only the record. -/
theorem solveLLG_st (l : Layer T) (t : T) (m b a h : CVec T) :
    ∃ c, (l.solveLLG t m b a h).2 = l.setCache c := by
  unfold solveLLG
  split
  · exact ⟨_, rfl⟩
  · split
    · exact ⟨_, rfl⟩
    · exact ⟨l.cache, rfl⟩

/-- `solveLLG` does not read the record. -/
theorem solveLLG_cache (l : Layer T) (c : LayerLog T) (t : T) (m b a h : CVec T) :
    ((l.setCache c).solveLLG t m b a h).1 = (l.solveLLG t m b a h).1 := by
  unfold solveLLG
  by_cases h1 : l.includeSTT = true
  · rw [if_pos h1, if_pos (show (l.setCache c).includeSTT = true from h1)]; rfl
  · rw [if_neg h1, if_neg (show ¬ (l.setCache c).includeSTT = true from h1)]
    by_cases h2 : l.includeSOT = true
    · rw [if_pos h2, if_pos (show (l.setCache c).includeSOT = true from h2)]; rfl
    · rw [if_neg h2, if_neg (show ¬ (l.setCache c).includeSOT = true from h2)]; rfl

theorem llgD_ok (l : Layer T) (t : T) (m b a dip : CVec T) (h : l.Guard) :
    ∃ c, l.llgDipoleInjection t m b a dip = .ok (l.llgDV t m b a dip) (l.setCache c) := by
  obtain ⟨c, hc⟩ := l.heffD_ok t m b a dip .zero h
  obtain ⟨c', hc'⟩ := solveLLG_st (l.setCache c) t m b a (l.heffV t m b a dip .zero)
  refine ⟨c', ?_⟩
  simp only [llgDipoleInjection, hc, Out.bind_ok, hc', setCache_setCache, solveLLG_cache, llgDV]

theorem llgD_err (l : Layer T) (t : T) (m b a dip : CVec T) (h : ¬ l.Guard) :
    ∃ c, l.llgDipoleInjection t m b a dip = .fail .divZero (l.setCache c) := by
  obtain ⟨c, hc⟩ := l.heffD_err t m b a dip .zero h
  exact ⟨c, by simp only [llgDipoleInjection, hc, Out.bind_fail]⟩

theorem llg_ok (l : Layer T) (t : T) (m b a : CVec T) (h : l.Guard) :
    ∃ c, l.llg t m b a = .ok (l.llgV t m b a) (l.setCache c) := by
  obtain ⟨c, hc⟩ := l.heff_ok t m b a .zero h
  obtain ⟨c', hc'⟩ := solveLLG_st (l.setCache c) t m b a (l.heffV t m b a (l.dipV b a) .zero)
  refine ⟨c', ?_⟩
  simp only [llg, hc, Out.bind_ok, hc', setCache_setCache, solveLLG_cache, llgV, llgDV]

theorem llg_err (l : Layer T) (t : T) (m b a : CVec T) (h : ¬ l.Guard) :
    ∃ c, l.llg t m b a = .fail .divZero (l.setCache c) := by
  obtain ⟨c, hc⟩ := l.heff_err t m b a .zero h
  exact ⟨c, by simp only [llg, hc, Out.bind_fail]⟩

@[simp] theorem guard_cache (l : Layer T) (c : LayerLog T) : (l.setCache c).Guard ↔ l.Guard :=
  Iff.rfl
@[simp] theorem heffV_cache (l : Layer T) (c : LayerLog T) (t : T) (m b a dip fl : CVec T) :
    (l.setCache c).heffV t m b a dip fl = l.heffV t m b a dip fl := rfl
@[simp] theorem llgDV_cache (l : Layer T) (c : LayerLog T) (t : T) (m b a dip : CVec T) :
    (l.setCache c).llgDV t m b a dip = l.llgDV t m b a dip := by
  simp only [llgDV, solveLLG_cache, heffV_cache]
@[simp] theorem llgV_cache (l : Layer T) (c : LayerLog T) (t : T) (m b a : CVec T) :
    (l.setCache c).llgV t m b a = l.llgV t m b a := by
  simp only [llgV, llgDV_cache]; rfl

/-- the Runge–Kutta update before normalisation, for a right-hand side `f` -/
def rk4U (f : T → CVec T → CVec T) (t dt : T) (m : CVec T) : CVec T :=
  let k1 := f t m * dt
  let k2 := f (t + 0.5 * dt) (m + k1 * (0.5 : T)) * dt
  let k3 := f (t + 0.5 * dt) (m + k2 * (0.5 : T)) * dt
  let k4 := f (t + dt) (m + k3) * dt
  rk4Combine m k1 k2 k3 k4

/-- RK4 update of the layer with fixed neighbours, normalised -/
def rk4V (l : Layer T) (t dt : T) (b a : CVec T) : CVec T :=
  (rk4U (fun s m => l.llgV s m b a) t dt l.mag).normalize

theorem rk4Step_ok (l : Layer T) (t dt : T) (b a : CVec T) (h : l.Guard) :
    ∃ c, l.rk4Step t dt b a =
      if Scalar.isNan (l.rk4V t dt b a).x then .fail .nan ((l.setCache c).setMag (l.rk4V t dt b a))
      else .ok () ((l.setCache c).setMag (l.rk4V t dt b a)) := by
  unfold rk4Step
  obtain ⟨c1, h1⟩ := l.llg_ok t l.mag b a h
  simp only [h1, Out.bind_ok]
  obtain ⟨c2, h2⟩ := (l.setCache c1).llg_ok (t + 0.5 * dt)
    (l.mag + l.llgV t l.mag b a * dt * (0.5 : T)) b a h
  simp only [h2, Out.bind_ok, llgV_cache, setCache_setCache]
  obtain ⟨c3, h3⟩ := (l.setCache c2).llg_ok (t + 0.5 * dt)
    (l.mag + l.llgV (t + 0.5 * dt) (l.mag + l.llgV t l.mag b a * dt * (0.5 : T)) b a * dt * (0.5 : T)) b a h
  simp only [h3, Out.bind_ok, llgV_cache, setCache_setCache]
  obtain ⟨c4, h4⟩ := (l.setCache c3).llg_ok (t + dt)
    (l.mag + l.llgV (t + 0.5 * dt)
      (l.mag + l.llgV (t + 0.5 * dt) (l.mag + l.llgV t l.mag b a * dt * (0.5 : T)) b a * dt * (0.5 : T)) b a * dt)
    b a h
  simp only [h4, Out.bind_ok, llgV_cache, setCache_setCache]
  exact ⟨c4, rfl⟩

theorem rk4Step_err (l : Layer T) (t dt : T) (b a : CVec T) (h : ¬ l.Guard) :
    ∃ c, l.rk4Step t dt b a = .fail .divZero (l.setCache c) := by
  obtain ⟨c, hc⟩ := l.llg_err t l.mag b a h
  exact ⟨c, by simp only [rk4Step, hc, Out.bind_fail]⟩

def rk4DV (l : Layer T) (t dt : T) (b a dip : CVec T) : CVec T :=
  (rk4U (fun s m => l.llgDV s m b a dip) t dt l.mag).normalize

theorem rk4D_ok (l : Layer T) (t dt : T) (b a dip : CVec T) (h : l.Guard) :
    ∃ c, l.rk4StepDipoleInjection t dt b a dip = .ok () ((l.setCache c).setMag (l.rk4DV t dt b a dip)) := by
  unfold rk4StepDipoleInjection
  obtain ⟨c1, h1⟩ := l.llgD_ok t l.mag b a dip h
  simp only [h1, Out.bind_ok]
  obtain ⟨c2, h2⟩ := (l.setCache c1).llgD_ok (t + 0.5 * dt)
    (l.mag + l.llgDV t l.mag b a dip * dt * (0.5 : T)) b a dip h
  simp only [h2, Out.bind_ok, llgDV_cache, setCache_setCache]
  obtain ⟨c3, h3⟩ := (l.setCache c2).llgD_ok (t + 0.5 * dt)
    (l.mag + l.llgDV (t + 0.5 * dt) (l.mag + l.llgDV t l.mag b a dip * dt * (0.5 : T)) b a dip * dt * (0.5 : T))
    b a dip h
  simp only [h3, Out.bind_ok, llgDV_cache, setCache_setCache]
  obtain ⟨c4, h4⟩ := (l.setCache c3).llgD_ok (t + dt)
    (l.mag + l.llgDV (t + 0.5 * dt)
      (l.mag + l.llgDV (t + 0.5 * dt) (l.mag + l.llgDV t l.mag b a dip * dt * (0.5 : T)) b a dip * dt * (0.5 : T))
      b a dip * dt) b a dip h
  simp only [h4, Out.bind_ok, llgDV_cache, setCache_setCache]
  exact ⟨c4, rfl⟩

theorem rk4D_err (l : Layer T) (t dt : T) (b a dip : CVec T) (h : ¬ l.Guard) :
    ∃ c, l.rk4StepDipoleInjection t dt b a dip = .fail .divZero (l.setCache c) := by
  obtain ⟨c, hc⟩ := l.llgD_err t l.mag b a dip h
  exact ⟨c, by simp only [rk4StepDipoleInjection, hc, Out.bind_fail]⟩

end Layer
