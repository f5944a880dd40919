import Verif.Model.Layer

/-!
# The class `EnergyDriver` of core/junction.hpp:85-109

Four static functions. Nothing else in /repo calls them; they are part of the C++ interface (the header is what C++ users include). `pow(x, 2)` is
`x ^ 2`. A literal with a minus sign is the negative of the literal.
-/

namespace EnergyDriver
variable {T : Type} [Scalar T]

/-- junction.hpp:87-90, `calculateZeemanEnergy`. -/
def zeeman (mag Hext : CVec T) (cellVolume Ms : T) : T := -Const.mu0 * Ms * mag.dot Hext * cellVolume

/-- junction.hpp:92-97, `calculateAnisotropyEnergy`. -/
def anisotropy (mag anis : CVec T) (K cellVolume : T) : T :=
  let sinSq := 1 - Scalar.powi (mag.dot anis / (anis.length * mag.length)) 2
  K * sinSq * cellVolume

/-- junction.hpp:99-102, `calculateIECEnergy`. -/
def exchange (mag other : CVec T) (J cellSurface : T) : T := -mag.dot other * J * cellSurface

/-- junction.hpp:104-108, `calculateDemagEnergy`. -/
def demag (mag Hdemag : CVec T) (Ms cellVolume : T) : T := -0.5 * Const.mu0 * Ms * mag.dot Hdemag * cellVolume

end EnergyDriver
