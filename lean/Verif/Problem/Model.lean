import Verif.Common
import Verif.Tactics
import Mathlib.Data.List.Perm.Basic

/-!
# Model of `aslam::backend::OptimizationProblem`

Source: `/repo/aslam_optimizer/aslam_backend/src/OptimizationProblem.cpp`.

Design variables and error terms are identified by their addresses.  `deps e` lists the design
variables of error term `e` in order, with repetitions (it is set once, `ErrorTerm.cpp` 93-102).
`held e` says that the caller keeps a reference of its own to `e`; a term that is neither held nor in
the problem has been deleted, and looking at it is undefined.  `debug` says whether the `_DBG`
assertions are compiled in.  The multimap is a list of pairs; which of several equal pairs is erased
makes no difference.  Simplification: design variables outlive the problem.
-/

namespace Kalibr.Problem

variable {D E : Type} [DecidableEq D] [DecidableEq E]

/-- The caller's side: dependencies, own references, build type. -/
structure Env (D E : Type) where
  deps : E → List D
  held : E → Bool
  debug : Bool

/-- The members `_designVariables`, `_errorTerms`, `_errorTermMap`. -/
structure St (D E : Type) where
  dvs : List D
  errs : List E
  map : List (D × E)

/-- Constructor. -/
def init : St D E := ⟨[], [], []⟩

/-- `addDesignVariable`, lines 21-42: raises if the variable is there already. -/
def addDesignVariable (s : St D E) (d : D) : Bool × St D E :=
  if d ∈ s.dvs then (true, s) else (false, { s with dvs := s.dvs ++ [d] })

/-- The loop of `addErrorTerm`, lines 63-67. -/
def addPairs (env : Env D E) (e : E) : List D → St D E → Bool × St D E
  | [], s => (false, s)
  | d :: ds, s =>
    if env.debug = true ∧ d ∉ s.dvs then (true, s)
    else addPairs env e ds { s with map := s.map ++ [(d, e)] }

/-- `addErrorTerm`, lines 59-68. -/
def addErrorTerm (env : Env D E) (s : St D E) (e : E) : Bool × St D E :=
  addPairs env e (env.deps e) { s with errs := s.errs ++ [e] }

/-- `removeErrorTerm`, lines 132-157.  Undefined if the term has been deleted. -/
def removeErrorTerm (env : Env D E) (s : St D E) (e : E) : Out (St D E) :=
  if e ∈ s.errs ∨ env.held e = true then
    .ok { s with map := (env.deps e).foldl (fun m d => m.erase (d, e)) s.map, errs := s.errs.erase e }
  else .ub

/-- The loop of `removeDesignVariable`, lines 169-171. -/
def removeAll (env : Env D E) : List E → St D E → Out (St D E)
  | [], s => .ok s
  | e :: es, s => do
    let s ← removeErrorTerm env s e
    removeAll env es s

/-- `removeDesignVariable`, lines 160-180. -/
def removeDesignVariable (env : Env D E) (s : St D E) (d : D) : Out (St D E) := do
  let terms := (s.map.filter (·.1 = d)).map (·.2)
  let s ← removeAll env terms s
  pure { s with dvs := s.dvs.erase d }

/-- `clear`, lines 81-86. -/
def clear (_ : St D E) : St D E := init

/-- `getErrors`, lines 120-129: the set of error terms listed for a variable. -/
def getErrors (s : St D E) (d : D) : List E := ((s.map.filter (·.1 = d)).map (·.2)).dedup

/-- `isDesignVariableInProblem`, lines 71-78. -/
def isDesignVariableInProblem (s : St D E) (d : D) : Bool := s.dvs.any (· = d)

/-- Calls that change the problem. -/
inductive Op (D E : Type) where
  | addDesignVariable (d : D)
  | addErrorTerm (e : E)
  | removeErrorTerm (e : E)
  | removeDesignVariable (d : D)
  | clear

/-- One call: whether it raised, and the state afterwards. -/
def step (env : Env D E) (s : St D E) : Op D E → Out (Bool × St D E)
  | .addDesignVariable d => .ok (addDesignVariable s d)
  | .addErrorTerm e => .ok (addErrorTerm env s e)
  | .removeErrorTerm e => do let s ← removeErrorTerm env s e; pure (false, s)
  | .removeDesignVariable d => do let s ← removeDesignVariable env s d; pure (false, s)
  | .clear => .ok (false, clear s)

/-- A history of calls: which raised, and the final state. -/
def run (env : Env D E) : St D E → List (Op D E) → Out (List Bool × St D E)
  | s, [] => .ok ([], s)
  | s, op :: ops => do
    let (r, s) ← step env s op
    let (rs, s) ← run env s ops
    pure (r :: rs, s)

end Kalibr.Problem
