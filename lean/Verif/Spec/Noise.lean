import Verif.Spec.Setters

/-! Vocabulary for statements about noise settings. -/

namespace Spec
variable {T : Type} [Scalar T]

/-- `l'` is `l` with other random generators: another stream of Gaussian draws at another position, another source
of 1/f noise, another (or no) 1/f generator object. -/
def OtherRandomness (l l' : Layer T) : Prop :=
  ∃ g p a b n, l' = { l with gauss := g, gpos := p, alphaSrc := a, bfn := b, bfnCount := n }

/-- What a run can be observed to do: succeed or fail, the log with its length, the magnetisations. -/
def SameOutcome (x y : Out (Junction T) Unit) : Prop :=
  x.res = y.res ∧ x.st.log = y.st.log ∧ x.st.logLength = y.st.logLength ∧
  x.st.layers.map Layer.mag = y.st.layers.map Layer.mag

end Spec
