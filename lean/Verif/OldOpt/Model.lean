import Mathlib.Data.Real.Basic
import Verif.Common

/-!
# The first optimizer

Models `optimize`, `initialize` and `setInitialLambda` of
`/repo/aslam_optimizer/aslam_backend/src/Optimizer.cpp`.  The error terms and the linear algebra are parameters: the
objective, the solution of the linear system built at a state with a damping, if the solver finds one, and how it changes a
state; the solution of that system is the subject of `Schur`, `Sparse` and `Dense`.  A design variable remembers the value
before its last update, and reverting restores it without forgetting it.  Numbers are exact reals; `optimizeDogLeg` is modelled in `OldDog`,
timing and messages are not modelled.
-/

namespace Kalibr.OldOpt

/-- What the optimizer works on. -/
structure Problem (X S : Type) where
  /-- `evaluateError` (Optimizer.cpp:658-669). -/
  cost : X → ℝ
  /-- The solution of the system built at a state, with a damping; nothing if the solver fails. -/
  solve : X → ℝ → Option S
  /-- `applyStateUpdate` (Optimizer.cpp:609-638) on the state. -/
  apply : X → S → X
  /-- What it returns. -/
  size : S → ℝ
  /-- `_dx.transpose() * (_lambda * _dx + _b)` (Optimizer.cpp:127-133). -/
  predicted : X → ℝ → S → ℝ

/-- `OptimizerOptions` (OptimizerOptions.hpp). -/
structure Options where
  convergenceDeltaJ : ℝ
  convergenceDeltaX : ℝ
  maxIterations : ℕ
  gamma : ℝ
  beta : ℤ
  p : ℕ
  muInit : ℝ
  lm : Bool

/-- The state of the loop: the design variables, what they revert to, the state the matrices were built at, and the members
and local variables. -/
structure Loop (X : Type) where
  cur : X
  prev : X
  lin : X
  J : ℝ
  pJ : ℝ
  lambda : ℝ
  mu : ℝ
  deltaX : ℝ
  deltaJ : ℝ
  regression : Bool
  iterations : ℕ
  failed : ℕ

variable {X S : Type}

/-- Before the loop (Optimizer.cpp:466-493); the matrices and what the variables revert to are whatever they were. -/
def start (P : Problem X S) (o : Options) (x junk lin : X) : Loop X where
  cur := x
  prev := junk
  lin := lin
  J := P.cost x
  pJ := P.cost x
  lambda := 0
  mu := o.muInit
  deltaX := o.convergenceDeltaX + 1
  deltaJ := o.convergenceDeltaJ + 1
  regression := false
  iterations := 0
  failed := 0

/-- The condition of the loop (Optimizer.cpp:495-497). -/
def goOn (o : Options) (s : Loop X) : Prop :=
  s.iterations < o.maxIterations ∧ o.convergenceDeltaX < s.deltaX ∧ o.convergenceDeltaJ < |s.deltaJ|

/-- `buildGnMatrices` and `setInitialLambda`, if the last step was not a regression (Optimizer.cpp:498-504, 136-140); `init`
is the damping computed from the matrices. -/
noncomputable def build (init : X → ℝ) (s : Loop X) : Loop X :=
  if s.regression then s
  else { s with lin := s.cur, lambda := if s.lambda ≠ 0 then s.lambda else init s.cur }

/-- `revertLastStateUpdate`, with a larger damping (Optimizer.cpp:521-531, 547-555, 644-649). -/
def reject (s : Loop X) : Loop X :=
  { s with regression := true, cur := s.prev, lambda := s.lambda * s.mu, mu := s.mu * 2, failed := s.failed + 1 }

/-- The damping after a success (Optimizer.cpp:556-571). -/
noncomputable def accept (o : Options) (rho : ℝ) (s : Loop X) : Loop X :=
  if (1e-16 : ℝ) < s.lambda then
    let u1 := 1 / o.gamma
    let u2 := 1 - ((o.beta : ℝ) - 1) * (2 * rho - 1) ^ o.p
    { s with regression := false, lambda := s.lambda * (if u2 < u1 then u1 else u2), mu := o.beta }
  else { s with regression := false, lambda := 1e-15 }

/-- `applyStateUpdate` and `evaluateError` (Optimizer.cpp:533-541). -/
def advance (P : Problem X S) (d : S) (s : Loop X) : Loop X :=
  let x := P.apply s.cur d
  { s with prev := s.cur, cur := x, J := P.cost x, deltaX := P.size d, deltaJ := s.pJ - P.cost x }

/-- One pass of the loop (Optimizer.cpp:498-577). -/
noncomputable def pass (P : Problem X S) (o : Options) (init : X → ℝ) (s : Loop X) : Loop X :=
  let s := build init s
  let s :=
    match P.solve s.lin s.lambda with
    | none => reject s
    | some d =>
      let t := advance P d s
      if o.lm then
        let rho := (t.pJ - t.J) / P.predicted s.lin s.lambda d
        if rho ≤ 0 then reject t else accept o rho t
      else t
  { s with iterations := s.iterations + 1, pJ := if s.J < s.pJ then s.J else s.pJ }

open Classical in
/-- The loop, with the number of passes that may still follow as the measure. -/
noncomputable def loop (P : Problem X S) (o : Options) (init : X → ℝ) : ℕ → Loop X → Loop X
  | 0, s => s
  | n + 1, s => if goOn o s then loop P o init n (pass P o init s) else s

/-- `optimize` (Optimizer.cpp:466-582). -/
noncomputable def optimize (P : Problem X S) (o : Options) (init : X → ℝ) (x junk lin : X) : Loop X :=
  loop P o init o.maxIterations (start P o x junk lin)

/-- The largest entry of the diagonal as `setInitialLambda` looks for it (Optimizer.cpp:144-154): the blocks on the diagonal
as functions of row and column with their size. -/
noncomputable def diagonalMaximum (H : List (ℕ × (ℕ → ℕ → ℝ))) : Out ℝ :=
  (H.zipIdx).foldl (fun m b => (List.range b.1.1).foldl (fun m j => m.bind fun m =>
    if m < |b.1.2 j j| then (if b.2 < b.1.1 then .ok |b.1.2 b.2 j| else .ub) else .ok m) m) (.ok 0)

/-- A design variable. -/
structure Var where
  id : ℕ
  active : Bool
  marginalized : Bool

/-- `initialize` (Optimizer.cpp:65-96): the variables in the order of their block indices and the first one that is
eliminated. -/
def order (schur : Bool) (l : List Var) : Out (List Var × ℕ) :=
  let r := l.foldl (fun r v =>
    if v.active then
      if v.marginalized && schur then (r.1, r.2 ++ [v]) else (r.1 ++ [v], r.2)
    else r) (([], []) : List Var × List Var)
  if r.1 = [] then .raise else .ok (r.1 ++ r.2, r.1.length)

end Kalibr.OldOpt
