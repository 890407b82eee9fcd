/-!
# Outcomes of a C++ call

A call of the modelled code ends in one of three ways: it returns a value, it raises a C++
exception, or its behaviour is undefined (signed overflow, out-of-range access, use of a null
pointer).  The three are never identified with one another.
-/

namespace Kalibr

/-- Outcome of a C++ call: a value, an exception or undefined behaviour. -/
inductive Out (α : Type) where
  | ok (a : α)
  | raise
  | ub
  deriving Repr, DecidableEq

namespace Out

variable {α β : Type}

/-- Sequencing: exceptions and undefined behaviour end the computation. -/
@[simp] def bind : Out α → (α → Out β) → Out β
  | ok a, f => f a
  | raise, _ => raise
  | ub, _ => ub

instance : Monad Out where
  pure := ok
  bind := Out.bind

@[simp] theorem pure_eq (a : α) : (pure a : Out α) = ok a := rfl
@[simp] theorem ok_bind (a : α) (f : α → Out β) : (ok a >>= f) = f a := rfl
@[simp] theorem raise_bind (f : α → Out β) : ((raise : Out α) >>= f) = raise := rfl
@[simp] theorem ub_bind (f : α → Out β) : ((ub : Out α) >>= f) = ub := rfl

theorem bind_eq_ok {x : Out α} {f : α → Out β} {b : β} :
    (x >>= f) = ok b ↔ ∃ a, x = ok a ∧ f a = ok b := by
  cases x <;> simp

/-- Executable check of a returned value, for concrete witnesses. -/
def okAnd (x : Out α) (P : α → Bool) : Bool :=
  match x with
  | ok a => P a
  | _ => false

theorem okAnd_spec {x : Out α} {P : α → Bool} (h : x.okAnd P = true) : ∃ a, x = ok a ∧ P a = true := by
  cases x <;> simp [okAnd] at h
  exact ⟨_, rfl, h⟩

end Out

end Kalibr
