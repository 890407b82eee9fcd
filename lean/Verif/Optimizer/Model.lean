import Verif.Common
import Verif.Tactics
import Mathlib.Algebra.Order.Field.Basic
import Mathlib.Data.Rat.Defs

/-!
# Model of `aslam::backend::Optimizer2`

Source: `/repo/aslam_optimizer/aslam_backend/src/Optimizer2.cpp`, with design variables as in
`src/DesignVariable.cpp` and `src/EuclideanPoint.cpp`.

The problem is the list of its design variables and the list of the dimensions of its error terms.
A design variable carries its value, the value saved by its last update, and its own update law,
which is an arbitrary function.  The cost (`evaluateError`) is an arbitrary function of the values of
all design variables.  The linear solver together with the trust region policy is an oracle: on
every pass it fails or proposes an arbitrary step; since the theorems hold for every sequence of
answers they hold for every policy and solver.  Simplifications: doubles are elements of an ordered
field (no rounding, no NaN); evaluating the cost does not throw; null problem and solver pointers are
left out; timing and printing are left out.
-/

namespace Kalibr.Optimizer

variable {V K : Type}

/-- A design variable (`DesignVariable.hpp`, `EuclideanPoint.cpp` 1-60).  `plus` is its update law. -/
structure Var (V K : Type) where
  value : V
  prev : V
  dim : Nat
  active : Bool
  scaling : K
  blockIndex : Int
  columnBase : Int
  plus : V → List K → V

/-- `DesignVariable::update`, as in `EuclideanPoint::updateImplementation` and
`RotationQuaternion::updateImplementation`: save the value, then change it. -/
def Var.update (v : Var V K) (dx : List K) : Var V K :=
  { v with prev := v.value, value := v.plus v.value dx }

/-- `DesignVariable::revertUpdate`, as in `EuclideanPoint::revertUpdateImplementation`: take back the
saved value. -/
def Var.revert (v : Var V K) : Var V K := { v with value := v.prev }

/-- `EuclideanPoint::setParametersImplementation`: overwrites the value and saves the old one. -/
def Var.setParameters (v : Var V K) (x : V) : Var V K := { v with prev := v.value, value := x }

/-- Assignment of block indices and column bases, `Optimizer2.cpp` 107-124.  The active variables are
collected in `_designVariables` in problem order; `i` is the index in that list. -/
def assign : Nat → Nat → List (Var V K) → List (Var V K)
  | _, _, [] => []
  | i, base, v :: vs =>
    if v.active then
      { v with blockIndex := i, columnBase := base } :: assign (i + 1) (base + v.dim) vs
    else v :: assign i base vs

/-- Row bases of the error terms, `Optimizer2.cpp` 130-135. -/
def rowBases : Nat → List Nat → List Nat
  | _, [] => []
  | base, d :: ds => base :: rowBases (base + d) ds

/-- `Optimizer2::initialize`, lines 95-151: the variables afterwards and the row base of every error
term. -/
def setUp (vars : List (Var V K)) (errs : List Nat) : Out (List (Var V K) × List Nat) :=
  if (vars.filter (·.active)).isEmpty then .raise
  else if errs.isEmpty then .raise
  else .ok (assign 0 0 vars, rowBases 0 errs)

/-- `Optimizer2::applyStateUpdate`, the loop of lines 293-301.  Reading a segment outside the step is
undefined. -/
def applyLoop [Mul K] (dx : List K) : Nat → List (Var V K) → Out (List (Var V K))
  | _, [] => .ok []
  | start, v :: vs =>
    if v.active then
      if start + v.dim ≤ dx.length then do
        let dxS := ((dx.drop start).take v.dim).map (· * v.scaling)
        let v' := if v.dim > 0 then v.update dxS else v
        let rest ← applyLoop dx (start + v.dim) vs
        pure (v' :: rest)
      else .ub
    else do
      let rest ← applyLoop dx start vs
      pure (v :: rest)

/-- `Optimizer2::applyStateUpdate`, lines 290-307: the variables afterwards and the largest magnitude
in the step.  The maximum of an empty step is undefined. -/
def applyStateUpdate [Field K] [LinearOrder K] (vars : List (Var V K)) (dx : List K) :
    Out (List (Var V K) × K) := do
  let vars' ← applyLoop dx 0 vars
  match dx with
  | [] => .ub
  | d :: ds => pure (vars', ds.foldl (fun m x => max m |x|) |d|)

/-- `Optimizer2::revertLastStateUpdate`, lines 313-318. -/
def revertLastStateUpdate (vars : List (Var V K)) : List (Var V K) :=
  vars.map fun v => if v.active then v.revert else v

/-- The options read by `optimize` (`Optimizer2Options.hpp` 20-26) and the answer of
`TrustRegionPolicy::revertOnFailure`. -/
structure Options (K : Type) where
  convergenceDeltaJ : K
  convergenceDeltaX : K
  maxIterations : Int
  revertOnFailure : Bool

/-- The local variables of `optimize`, the members `_J`, `_p_J` and the design variables. -/
structure St (V K : Type) where
  vars : List (Var V K)
  J : K
  pJ : K
  jStart : K
  deltaX : K
  deltaJ : K
  previousIterationFailed : Bool
  linearSolverFailure : Bool
  iterations : Int
  failedIterations : Int

variable [Field K] [LinearOrder K]

/-- Values of all variables of the problem. -/
def values (vars : List (Var V K)) : List V := vars.map (·.value)

/-- `Optimizer2::optimize`, lines 190-217: everything before the loop. -/
def start (o : Options K) (cost : List V → K) (vars : List (Var V K)) : St V K :=
  { vars := vars, J := cost (values vars), pJ := cost (values vars), jStart := cost (values vars)
    deltaX := o.convergenceDeltaX + 1, deltaJ := o.convergenceDeltaJ + 1
    previousIterationFailed := false, linearSolverFailure := false
    iterations := 0, failedIterations := 0 }

/-- The condition of the loop, lines 219-223. -/
def goOn (o : Options K) (s : St V K) : Bool :=
  decide (s.iterations < o.maxIterations) && decide (s.failedIterations < o.maxIterations) &&
    ((decide (s.deltaX > o.convergenceDeltaX) && decide (|s.deltaJ| > o.convergenceDeltaJ)) ||
      s.linearSolverFailure)

/-- One pass of the loop, lines 224-264.  The answer of the solver is `none` if it fails. -/
def pass (o : Options K) (cost : List V → K) (s : St V K) (answer : Option (List K)) :
    Out (St V K) :=
  match answer with
  | none =>
    .ok { s with previousIterationFailed := true, linearSolverFailure := true
                 failedIterations := s.failedIterations + 1 }
  | some dx => do
    let (vars, deltaX) ← applyStateUpdate s.vars dx
    let J := cost (values vars)
    let deltaJ := s.pJ - J
    let s := { s with vars := vars, deltaX := deltaX, J := J, deltaJ := deltaJ }
    let s :=
      if o.revertOnFailure then
        if deltaJ < 0 then
          { s with vars := revertLastStateUpdate vars
                   failedIterations := s.failedIterations + 1, previousIterationFailed := true }
        else { s with pJ := J, previousIterationFailed := false }
      else { s with pJ := J }
    pure { s with iterations := s.iterations + 1 }

/-- The first `n` passes of the loop, lines 219-266; the loop stays where it is once its condition
fails.  Pass `k` gets the answer `answers k`. -/
def passes (o : Options K) (cost : List V → K) (answers : Nat → Option (List K)) :
    Nat → St V K → Out (St V K)
  | 0, s => .ok s
  | n + 1, s => do
    let s ← passes o cost answers n s
    if goOn o s then pass o cost s (answers n) else .ok s

/-- `SolutionReturnValue`. -/
structure Ret (K : Type) where
  jStart : K
  jFinal : K
  iterations : Int
  failedIterations : Int
  dXFinal : K
  dJFinal : K
  linearSolverFailure : Bool

/-- The value returned from a final state, lines 267-272. -/
def ret (s : St V K) : Ret K :=
  { jStart := s.jStart, jFinal := s.pJ, iterations := s.iterations
    failedIterations := s.failedIterations, dXFinal := s.deltaX, dJFinal := s.deltaJ
    linearSolverFailure := s.linearSolverFailure }

/-- `Optimizer2::optimize`, lines 183-273: `optimize … n` is the outcome if the loop ends within `n`
passes and `none` if it does not.  The second component is the final state of the optimiser. -/
def optimize (o : Options K) (cost : List V → K) (answers : Nat → Option (List K))
    (vars : List (Var V K)) (errs : List Nat) (n : Nat) : Out (Option (Ret K × St V K)) := do
  let (vars, _) ← setUp vars errs
  let s ← passes o cost answers n (start o cost vars)
  pure (if goOn o s then none else some (ret s, s))

end Kalibr.Optimizer
