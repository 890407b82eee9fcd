import Verif.Problem.Model

/-!
# Specification of the optimisation problem

The abstract state is the list of live variables and the list of live error terms.
-/

namespace Kalibr.Problem.Spec

variable {D E : Type} [DecidableEq D] [DecidableEq E]

/-- Live variables and error terms, in the order they were added. -/
structure Live (D E : Type) where
  dvs : List D
  errs : List E

/-- The intended effect of a call that does not raise. -/
def apply (deps : E → List D) (l : Live D E) : Op D E → Live D E
  | .addDesignVariable d => if d ∈ l.dvs then l else { l with dvs := l.dvs ++ [d] }
  | .addErrorTerm e => { l with errs := l.errs ++ [e] }
  | .removeErrorTerm e => { l with errs := l.errs.erase e }
  | .removeDesignVariable d =>
    { dvs := l.dvs.filter (· ≠ d), errs := l.errs.filter (d ∉ deps ·) }
  | .clear => ⟨[], []⟩

/-- The live variables and terms after a history. -/
def live (deps : E → List D) (ops : List (Op D E)) : Live D E :=
  ops.foldl (apply deps) ⟨[], []⟩

end Kalibr.Problem.Spec
