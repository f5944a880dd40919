import Verif.Spec.Runs

/-!
Specification of the energy densities computed from a log.
-/

namespace Spec
variable {T : Type} [Scalar T]

/-- The fields that are logged for every layer. -/
def fieldNames : List String := ["Hext", "Hiec", "Hanis", "Hdemag", "Hth"]

/-- Row `r` of the energy density: minus the product of the magnetisation of layer `m` and the field `h` (a layer's id and a field name),
divided by `d`. -/
def energyRow (log : Log T) (d : T) (m h f : String) (r : ℕ) : T :=
  -((log.col (m ++ "_mx")).getD r 0 * (log.col (h ++ "_" ++ f ++ "x")).getD r 0 +
    (log.col (m ++ "_my")).getD r 0 * (log.col (h ++ "_" ++ f ++ "y")).getD r 0 +
    (log.col (m ++ "_mz")).getD r 0 * (log.col (h ++ "_" ++ f ++ "z")).getD r 0) / d

/-- `o` is the part of the id before its first underscore. -/
def Before (id o : String) : Prop := '_' ∉ o.toList ∧ (id = o ∨ ∃ r, id = o ++ "_" ++ r)

/-- The id ends with the letter J. -/
def EndsWithJ (id : String) : Prop := ['J'] <:+ id.toList

end Spec
