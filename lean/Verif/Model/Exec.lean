import Verif.Scalar

/-!
# Mutating calls

`Out σ α` is the outcome of a C++ call on an object of type `σ`: either a result or an exception, and the
object as the call leaves it. On an exception the object keeps what was written before the throw.
-/

structure Out (σ α : Type) where
  res : Except Err α
  st : σ

namespace Out
variable {σ α β : Type}

/-- Normal return. -/
def ok (a : α) (s : σ) : Out σ α := ⟨.ok a, s⟩
/-- Throw. -/
def fail (e : Err) (s : σ) : Out σ α := ⟨.error e, s⟩

/-- Sequencing: continue with the result and the new object, or propagate the exception. -/
def bind (x : Out σ α) (f : α → σ → Out σ β) : Out σ β :=
  match x with
  | ⟨.ok a, s⟩ => f a s
  | ⟨.error e, s⟩ => ⟨.error e, s⟩

@[simp] theorem bind_ok (a : α) (s : σ) (f : α → σ → Out σ β) : bind (ok a s) f = f a s := rfl
@[simp] theorem bind_fail (e : Err) (s : σ) (f : α → σ → Out σ β) : bind (fail e s) f = fail e s := rfl
@[simp] theorem ok_res (a : α) (s : σ) : (ok a s).res = .ok a := rfl
@[simp] theorem ok_st (a : α) (s : σ) : (ok a s).st = s := rfl
@[simp] theorem fail_res (e : Err) (s : σ) : (fail e s : Out σ α).res = .error e := rfl
@[simp] theorem fail_st (e : Err) (s : σ) : (fail e s : Out σ α).st = s := rfl

/-- A C++ loop over the elements of a vector by index, mutating each element in turn, collecting a value
for each, and stopping at the first exception (earlier elements stay mutated, later ones are untouched). -/
def traverse (f : Nat → σ → Out σ β) : Nat → List σ → Out (List σ) (List β)
  | _, [] => ok [] []
  | i, a :: as =>
    match f i a with
    | ⟨.error e, a'⟩ => ⟨.error e, a' :: as⟩
    | ⟨.ok b, a'⟩ =>
      match traverse f (i + 1) as with
      | ⟨.error e, as'⟩ => ⟨.error e, a' :: as'⟩
      | ⟨.ok bs, as'⟩ => ⟨.ok (b :: bs), a' :: as'⟩

end Out
