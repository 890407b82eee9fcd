import Verif.Merged.Model

/-!
# Model of `aslam::calibration::IncrementalEstimator`

Source: `/repo/aslam_incremental_calibration/aslam_incremental_calibration/src/core/`
`IncrementalEstimator.cpp`.

The optimiser and the linear solver are an oracle: each call of `optimize` either throws or reports
statistics, and writes arbitrary values into the design variables of the problem and nothing else.
Doubles are rationals.  All estimates that are only copied (bases, covariances, singular values,
tolerances, other ranks, memory and flop counts) are one opaque value `rest`.  Simplifications:
`analyzeMarginal` and the copying do not throw; elapsed time and `restoreLinearSolver` (internal state
of the linear solver) are left out.
-/

namespace Kalibr.Estimator

open Kalibr.Batch (Batch)
open Kalibr.Merged (Merged)

variable {V S : Type}

/-- What the optimiser and linear solver report. -/
structure Report (S : Type) where
  iterations : Nat
  jStart : ℚ
  jFinal : ℚ
  rankTheta : Int
  svLog2Sum : ℚ
  rest : S

/-- One call of `optimize`: the report (`none`: it threw) and the values written. -/
structure Solve (V S : Type) where
  report : Option (Report S)
  values : Nat → V

/-- The estimates stored in the estimator. -/
structure Stored (S : Type) where
  informationGain : ℚ
  svLog2Sum : ℚ
  rankTheta : Int
  initialCost : ℚ
  finalCost : ℚ
  rest : S

/-- `_margGroupId`, `_options`, and the optimiser's `maxIterations`. -/
structure Config where
  marg : Nat
  infoGainDelta : ℚ
  checkValidity : Bool
  maxIterations : Nat

/-- The estimator and the memory holding parameter values. -/
structure World (V S : Type) where
  m : Merged V
  stored : Stored S
  mem : Nat → V

/-- `std::swap(*margGroupIt, groupsOrdering.back())` (501). -/
def swapLast (marg : Nat) (order : List Nat) : List Nat :=
  Permute.swap order (order.idxOf marg) (order.length - 1)

/-- `orderMarginalizedDesignVariables` (490-505). -/
def orderMarg (cfg : Config) (m : Merged V) : Out Unit × Merged V :=
  if cfg.marg ∉ m.order then (.raise, m)
  else if m.order.getLast? ≠ some cfg.marg then
    Merged.setGroupsOrdering m (swapLast cfg.marg m.order)
  else (.ok (), m)

/-- `getGroupDim` summed as in 261-265 and 352-356: the start column of the marginalised block, given
the dimension of each group. -/
def margStartIndex (cfg : Config) (dim : Nat → Nat) (m : Merged V) : Nat :=
  (m.order.map dim).sum - dim cfg.marg

/-- The effect of `optimize` on the parameters. -/
def written (m : Merged V) (mem values : Nat → V) : Nat → V := fun d =>
  if Merged.isDesignVariableInProblem m d then values d else mem d

/-- `reoptimize` (252-335). -/
def reoptimize (cfg : Config) (w : World V S) (s : Solve V S) : Out Unit × World V S :=
  match orderMarg cfg w.m with
  | (.ok _, m) =>
    let w := { w with m := m, mem := written m w.mem s.values }
    match s.report with
    | none => (.raise, w)
    | some r => (.ok (), { w with stored :=
        { informationGain := 0, svLog2Sum := r.svLog2Sum, rankTheta := r.rankTheta,
          initialCost := r.jStart, finalCost := r.jFinal, rest := r.rest } })
  | (o, m) => (o, { w with m := m })

/-- The decision of `addBatch` (397-411). -/
def keep (cfg : Config) (st : Stored S) (r : Report S) (force : Bool) : Bool :=
  let solutionValid := !(cfg.checkValidity && (r.iterations == cfg.maxIterations || decide (r.jFinal ≥ r.jStart)))
  let gain := (1 / 2) * (r.svLog2Sum - st.svLog2Sum)
  (((decide (gain > cfg.infoGainDelta) || decide (r.rankTheta > st.rankTheta)) && solutionValid) || force)

/-- `addBatch` (337-470): the result is `batchAccepted`. -/
def addBatch (B : Nat → Batch V) (cfg : Config) (w : World V S) (id : Option Nat) (force : Bool)
    (s : Solve V S) : Out Bool × World V S :=
  match Merged.add B w.m id with
  | (.ok _, m) =>
    match orderMarg cfg m with
    | (.ok _, m) =>
      let m := if force then m else Merged.saveDesignVariables m w.mem
      let mem := written m w.mem s.values
      match s.report with
      | none => (.raise, { w with m := m, mem := mem })
      | some r =>
        if keep cfg w.stored r force then
          (.ok true, { m := m, mem := mem, stored :=
            { informationGain := (1 / 2) * (r.svLog2Sum - w.stored.svLog2Sum), svLog2Sum := r.svLog2Sum,
              rankTheta := r.rankTheta, initialCost := r.jStart, finalCost := r.jFinal, rest := r.rest } })
        else
          let mem := Merged.restoreDesignVariables m mem
          match id with
          | none => (.ub, w)                          -- a null batch was refused by `add`
          | some id =>
            match Merged.removePtr B m id with
            | (.ok _, m) => (.ok false, { w with m := m, mem := mem })
            | (.raise, m) => (.raise, { w with m := m, mem := mem })
            | (.ub, m) => (.ub, { w with m := m, mem := mem })
    | (.raise, m) => (.raise, { w with m := m })
    | (.ub, m) => (.ub, { w with m := m })
  | (.raise, m) => (.raise, { w with m := m })
  | (.ub, m) => (.ub, { w with m := m })

/-- `removeBatch(idx)` (472-478). -/
def removeBatch (B : Nat → Batch V) (cfg : Config) (w : World V S) (idx : Nat) (s : Solve V S) :
    Out Unit × World V S :=
  match Merged.remove B w.m idx with
  | (.ok _, m) => reoptimize cfg { w with m := m } s
  | (o, m) => (o, { w with m := m })

/-- `removeBatch(batch)` (480-484). -/
def removeBatchPtr (B : Nat → Batch V) (cfg : Config) (w : World V S) (id : Nat) (s : Solve V S) :
    Out Unit × World V S :=
  if id ∈ w.m.problems then removeBatch B cfg w (w.m.problems.idxOf id) s else (.ok (), w)

/-- Calls of the estimator; `assign` is any outside write to a parameter. -/
inductive Op (V S : Type) where
  | addBatch (id : Option Nat) (force : Bool) (s : Solve V S)
  | removeBatch (idx : Nat) (s : Solve V S)
  | removeBatchPtr (id : Nat) (s : Solve V S)
  | reoptimize (s : Solve V S)
  | assign (dv : Nat) (v : V)

/-- One call: whether it returned, and `batchAccepted` for `addBatch`. -/
def step (B : Nat → Batch V) (cfg : Config) (w : World V S) : Op V S → Out (Option Bool) × World V S
  | .addBatch id force s =>
    let r := addBatch B cfg w id force s
    (match r.1 with | .ok b => .ok (some b) | .raise => .raise | .ub => .ub, r.2)
  | .removeBatch idx s =>
    let r := removeBatch B cfg w idx s
    (match r.1 with | .ok _ => .ok none | .raise => .raise | .ub => .ub, r.2)
  | .removeBatchPtr id s =>
    let r := removeBatchPtr B cfg w id s
    (match r.1 with | .ok _ => .ok none | .raise => .raise | .ub => .ub, r.2)
  | .reoptimize s =>
    let r := reoptimize cfg w s
    (match r.1 with | .ok _ => .ok none | .raise => .raise | .ub => .ub, r.2)
  | .assign dv v => (.ok none, { w with mem := Function.update w.mem dv v })

/-- Outcomes and final world of a history. -/
def runFrom (B : Nat → Batch V) (cfg : Config) (w : World V S) :
    List (Op V S) → List (Out (Option Bool)) × World V S
  | [] => ([], w)
  | op :: ops =>
    let r := step B cfg w op
    let t := runFrom B cfg r.2 ops
    (r.1 :: t.1, t.2)

/-- A new estimator (constructors 44-108): empty problem, rank -1, everything else zero (`rest`: the
initial values of the estimates that are only copied). -/
def initial (rest : S) (mem : Nat → V) : World V S :=
  ⟨⟨[], [], [], [], []⟩, ⟨0, 0, -1, 0, 0, rest⟩, mem⟩

def run (B : Nat → Batch V) (cfg : Config) (rest : S) (mem : Nat → V) (ops : List (Op V S)) :=
  runFrom B cfg (initial rest mem) ops

end Kalibr.Estimator
