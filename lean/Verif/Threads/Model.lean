import Verif.Common
import Verif.Tactics
import Mathlib.Algebra.BigOperators.Group.List.Basic
import Mathlib.Algebra.BigOperators.Group.Multiset.Basic

/-!
# Model of the threaded error evaluation of `aslam::backend::LinearSystemSolver`

Source: `/repo/aslam_optimizer/aslam_backend/src/LinearSystemSolver.cpp` lines 12-92.

Evaluating an error term gives its squared error and its weighted error vector, or throws an exception
derived from `std::exception`.  A schedule is a list of thread numbers: at each entry that thread
evaluates its next error term and stores the results.  Everything a thread writes (its accumulator,
the rows of its terms) is written by no other thread, so this granularity loses no behaviour.
Simplifications: sums are exact; the number of error terms fits an `int`; an exception is thrown
before the term has written anything; the evaluation of a term does not depend on other terms.
-/

namespace Kalibr.Threads

variable {K X E : Type}

/-- What the solver sees of an error term. -/
structure Term (K X E : Type) where
  eval : Except E (K × List X)
  rowBase : Nat
  dim : Nat

/-- The vector `indices` of `setupThreadedJob`, lines 57-62. -/
def indices (n k per : Nat) : List Nat :=
  ((List.range k).foldl (fun ind i => ind.set (i + 1) (ind.getD i 0 + per))
    (List.replicate (k + 1) 0)).set k n

/-- The index ranges given to the threads, `setupThreadedJob`, lines 50-70.  Integer division by zero
is undefined. -/
def ranges (n k : Nat) : Out (List (Nat × Nat)) :=
  if k ≤ 1 then .ok [(0, n)]
  else
    let k := min k n
    if k = 0 then .ub
    else
      let per := max 1 (n / k)
      let ind := indices n k per
      .ok ((List.range k).map fun i => (ind.getD i 0, ind.getD (i + 1) 0))

/-- A thread running `evaluateErrors` (lines 12-23) on the terms `pos … stop`. -/
structure Thread (K E : Type) where
  pos : Nat
  stop : Nat
  failed : Option E
  acc : K

/-- The threads and the error vector `_e`. -/
structure World (K X E : Type) where
  threads : List (Thread K E)
  e : List X

/-- Writing a segment of a vector (line 21); outside the vector, or with the wrong length, this is
undefined. -/
def writeSegment (e : List X) (base dim : Nat) (v : List X) : Out (List X) :=
  if base + dim ≤ e.length ∧ v.length = dim then .ok (e.take base ++ v ++ e.drop (base + dim))
  else .ub

/-- Thread `t` evaluates its next term: the body of the loop of `evaluateErrors`, lines 17-22, with
`SafeJob` (lines 31-48) catching exceptions. -/
def step [Add K] [Neg X] (terms : List (Term K X E)) (w : World K X E) (t : Nat) : Out (World K X E) :=
  match w.threads[t]? with
  | none => .ok w
  | some th =>
    if th.failed.isSome || decide (th.stop ≤ th.pos) then .ok w
    else
      match terms[th.pos]? with
      | none => .ub
      | some term =>
        match term.eval with
        | .error ex => .ok { w with threads := w.threads.set t { th with failed := some ex } }
        | .ok (s, v) => do
          let e ← writeSegment w.e term.rowBase term.dim (v.map (- ·))
          pure { threads := w.threads.set t { th with pos := th.pos + 1, acc := th.acc + s }, e := e }

/-- All steps of a schedule. -/
def run [Add K] [Neg X] (terms : List (Term K X E)) : List Nat → World K X E → Out (World K X E)
  | [], w => .ok w
  | t :: ts, w => do
    let w ← step terms w t
    run terms ts w

/-- A thread has nothing left to do. -/
def Thread.finished (th : Thread K E) : Bool := th.failed.isSome || decide (th.stop ≤ th.pos)

/-- Outcome of `evaluateError`: the error, an exception with its own type and message, or a plain
`std::exception` that has lost them. -/
inductive Result (K E : Type) where
  | value (error : K)
  | exception (e : E)
  | plainException

/-- The threads as started. -/
def initThreads [Zero K] (rs : List (Nat × Nat)) : List (Thread K E) :=
  rs.map fun (a, b) => ⟨a, b, none, 0⟩

/-- `evaluateError`, lines 81-92, under a schedule; `none` if the schedule leaves some thread
unfinished (`join_all` would wait on).  Exceptions: with one thread `job` is called directly (line 53)
and the exception leaves unchanged; with several threads a copy of the base class is thrown
(lines 73-77). -/
def evaluateError [AddMonoid K] [Neg X] (nThreads : Nat) (terms : List (Term K X E)) (e : List X)
    (schedule : List Nat) : Out (Option (Result K E × List X)) := do
  let nThreads := max 1 nThreads
  let rs ← ranges terms.length nThreads
  let w ← run terms schedule ⟨initThreads rs, e⟩
  if w.threads.all (·.finished) then
    match w.threads.findSome? (fun th : Thread K E => th.failed) with
    | some ex => pure (some (if nThreads ≤ 1 then .exception ex else .plainException, w.e))
    | none =>
      -- accumulators of threads that were not started stay 0
      pure (some (.value ((w.threads.map Thread.acc) ++
        List.replicate (nThreads - w.threads.length) 0).sum, w.e))
  else pure none

end Kalibr.Threads
