import Verif.Threads.Model

/-!
# Specification vocabulary for threaded evaluation
-/

namespace Kalibr.Threads.Spec

variable {K X E : Type}

/-- The ranges follow one another from `a` to `b`. -/
def Split : Nat → Nat → List (Nat × Nat) → Prop
  | a, b, [] => a = b
  | a, b, (x, y) :: rs => x = a ∧ x ≤ y ∧ Split y b rs

/-- The row bases of the terms are running sums of their dimensions (as set by the optimiser). -/
def LaidOut : Nat → List (Term K X E) → Prop
  | _, [] => True
  | b, t :: ts => t.rowBase = b ∧ LaidOut (b + t.dim) ts

/-- Every term that evaluates gives a vector of its dimension. -/
def WellSized (terms : List (Term K X E)) : Prop :=
  ∀ t ∈ terms, ∀ s v, t.eval = .ok (s, v) → v.length = t.dim

/-- Squared error of a term. -/
def sqError [Zero K] (t : Term K X E) : K :=
  match t.eval with
  | .ok (s, _) => s
  | .error _ => 0

/-- Weighted error of a term. -/
def weighted (t : Term K X E) : List X :=
  match t.eval with
  | .ok (_, v) => v
  | .error _ => []

/-- The term evaluates without an exception. -/
def Evaluates (t : Term K X E) : Prop := ∃ r, t.eval = .ok r

end Kalibr.Threads.Spec
