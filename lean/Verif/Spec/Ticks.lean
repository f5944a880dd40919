/-! Repeated calls of a generator. -/

namespace Spec

/-- The generator after `n` calls. -/
def after {σ α : Type} (step : σ → α × σ) (s : σ) : Nat → σ
  | 0 => s
  | n + 1 => (step (after step s n)).2

/-- What call number `n` (from 0) returns. -/
def output {σ α : Type} (step : σ → α × σ) (s : σ) (n : Nat) : α := (step (after step s n)).1

end Spec
