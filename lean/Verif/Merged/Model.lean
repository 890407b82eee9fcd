import Verif.Batch.Model

/-!
# Model of `aslam::calibration::IncrementalOptimizationProblem` (the merged problem)

Source: `/repo/aslam_incremental_calibration/aslam_incremental_calibration/src/core/`
`IncrementalOptimizationProblem.cpp`.

Batches are shared pointers: a batch is a number, `B` gives its contents.  Simplification: the
contents of a batch do not change while it is used (the code keeps the pointer, so a caller could
modify it).  Functions that can raise half way return the state they leave behind.
-/

namespace Kalibr.Merged

open Kalibr.Batch (Batch)

/-- `_optimizationProblems`, `_designVariablesCounts`, `_designVariables`, `_groupsOrdering`,
`_designVariablesBackup`. -/
structure Merged (V : Type) where
  problems : List Nat
  counts : FMap Nat (Nat × Nat)
  groups : FMap Nat (List Nat)
  order : List Nat
  backup : FMap Nat V

variable {V : Type}

def Merged.empty : Merged V := ⟨[], [], [], [], []⟩

/-- `isDesignVariableInProblem` (91-94). -/
def isDesignVariableInProblem (m : Merged V) (dv : Nat) : Bool := (m.counts.find dv).isSome

/-- `isGroupInProblem` (177-180). -/
def isGroupInProblem (m : Merged V) (g : Nat) : Bool := (m.groups.find g).isSome

/-- `isErrorTermInProblem` (96-103). -/
def isErrorTermInProblem (B : Nat → Batch V) (m : Merged V) (et : Nat) : Bool :=
  m.problems.any fun id => Batch.isErrorTermInProblem (B id) et

/-- `getGroupId(designVariable)` (157-164). -/
def getGroupId (m : Merged V) (dv : Nat) : Out Nat :=
  match m.counts.find dv with
  | some e => .ok e.2
  | none => .raise

/-- `getDesignVariablesGroup` (110-118). -/
def getDesignVariablesGroup (m : Merged V) (g : Nat) : Out (List Nat) :=
  match m.groups.find g with
  | some l => .ok l
  | none => .raise

/-- `getNumGroups` (128-130). -/
def getNumGroups (m : Merged V) : Nat := m.groups.length

/-- `setGroupsOrdering` (132-150). -/
def setGroupsOrdering (m : Merged V) (l : List Nat) : Out Unit × Merged V :=
  if l.length ≠ m.order.length then (.raise, m)
  else if Batch.checkOrdering m.groups [] l then (.ok (), { m with order := l })
  else (.raise, m)

/-- One pass of the loop of `add` (195-209) for variable `dv` of group `g`. -/
def addVar (m : Merged V) (dv g : Nat) : Out Unit × Merged V :=
  let m := if !isGroupInProblem m g then { m with order := m.order ++ [g] } else m
  match m.counts.find dv with
  | none => (.ok (), { m with
      counts := m.counts.set dv (1, g)
      groups := m.groups.set g ((m.groups.find g).getD [] ++ [dv]) })
  | some e =>
    if e.2 ≠ g then (.raise, m)
    else (.ok (), { m with counts := m.counts.set dv (e.1 + 1, e.2) })

/-- The loop of `add` over the variables of the batch (194-210), `n` of them left. -/
def addLoop (b : Batch V) : Nat → Nat → Merged V → Out Unit × Merged V
  | 0, _, m => (.ok (), m)
  | n + 1, i, m =>
    match Batch.designVariable b i with
    | .ok dv =>
      match Batch.getGroupId b dv with
      | .ok g =>
        match addVar m dv g with
        | (.ok _, m) => addLoop b n (i + 1) m
        | r => r
      | .raise => (.raise, m)
      | .ub => (.ub, m)
    | .raise => (.raise, m)
    | .ub => (.ub, m)

/-- The loop of `add` over the error terms of the batch (213-219), `n` of them left. -/
def checkTerms (B : Nat → Batch V) (m : Merged V) (b : Batch V) : Nat → Nat → Out Unit
  | 0, _ => .ok ()
  | n + 1, i =>
    match Batch.errorTerm b i with
    | .ok et => if isErrorTermInProblem B m et then .raise else checkTerms B m b n (i + 1)
    | .raise => .raise
    | .ub => .ub

/-- `add` (186-223). -/
def add (B : Nat → Batch V) (m : Merged V) (id : Option Nat) : Out Unit × Merged V :=
  match id with
  | none => (.raise, m)
  | some id =>
    match addLoop (B id) (Batch.numDesignVariables (B id)) 0 m with
    | (.ok _, m) =>
      match checkTerms B m (B id) (Batch.numErrorTerms (B id)) 0 with
      | .ok _ => (.ok (), { m with problems := m.problems ++ [id] })
      | .raise => (.raise, m)
      | .ub => (.ub, m)
    | r => r

/-- `first--` on an unsigned counter. -/
def dec (c : Nat) : Nat := if c = 0 then 2 ^ 64 - 1 else c - 1

/-- One pass of the loop of `remove` (241-257) for variable `dv`. -/
def removeVar (m : Merged V) (dv : Nat) : Out Unit × Merged V :=
  let e := (m.counts.find dv).getD (0, 0)            -- operator[] creates a missing entry
  let counts := m.counts.set dv (dec e.1, e.2)
  if dec e.1 ≠ 0 then (.ok (), { m with counts := counts })
  else
    let counts := counts.erase dv
    let l := (m.groups.find e.2).getD []
    if dv ∈ l then
      let l' := l.erase dv
      if l' = [] then
        if e.2 ∈ m.order then
          (.ok (), { m with counts := counts, groups := m.groups.erase e.2,
                            order := m.order.erase e.2, backup := m.backup.erase dv })
        else (.ub, m)                                  -- erase(end())
      else (.ok (), { m with counts := counts, groups := m.groups.set e.2 l',
                             backup := m.backup.erase dv })
    else (.ub, m)                                      -- erase(end())

/-- The loop of `remove` (239-258), `n` variables left. -/
def removeLoop (b : Batch V) : Nat → Nat → Merged V → Out Unit × Merged V
  | 0, _, m => (.ok (), m)
  | n + 1, i, m =>
    match Batch.designVariable b i with
    | .ok dv =>
      match removeVar m dv with
      | (.ok _, m) => removeLoop b n (i + 1) m
      | r => r
    | .raise => (.raise, m)
    | .ub => (.ub, m)

/-- `remove(idx)` (225-266). -/
def remove (B : Nat → Batch V) (m : Merged V) (idx : Nat) : Out Unit × Merged V :=
  match m.problems[idx]? with
  | none => (.raise, m)
  | some id =>
    match removeLoop (B id) (Batch.numDesignVariables (B id)) 0 m with
    | (.ok _, m) => (.ok (), { m with problems := m.problems.eraseIdx idx })
    | r => r

/-- `remove(problem)` (388-396): the first occurrence. -/
def removePtr (B : Nat → Batch V) (m : Merged V) (id : Nat) : Out Unit × Merged V :=
  if id ∈ m.problems then remove B m (m.problems.idxOf id) else (.raise, m)

/-- `clear` (268-273): the backups stay. -/
def clear (m : Merged V) : Merged V := ⟨[], [], [], [], m.backup⟩

/-- `numDesignVariablesImplementation` (275-278). -/
def numDesignVariables (m : Merged V) : Nat := m.counts.length

/-- `designVariableImplementation(idx)` (280-295) with `getGroupId(idx, …)` (343-363). -/
def designVariable (m : Merged V) (idx : Nat) : Out Nat :=
  if numDesignVariables m ≤ idx then .raise else do
    let r ← Batch.locate m.groups idx m.order 0
    match m.groups.find r.1 with
    | none => .raise
    | some l =>
      match l[r.2]? with
      | some dv => .ok dv
      | none => .ub

/-- `numErrorTermsImplementation` (297-304). -/
def numErrorTerms (B : Nat → Batch V) (m : Merged V) : Nat :=
  (m.problems.map fun id => Batch.numErrorTerms (B id)).sum

/-- `getErrorIdx` (365-386). -/
def getErrorIdx (B : Nat → Batch V) (idx : Nat) : List Nat → Nat → Out (Nat × Nat)
  | [], _ => .raise
  | id :: ids, run =>
    if idx < run + Batch.numErrorTerms (B id) then .ok (id, idx - run)
    else getErrorIdx B idx ids (run + Batch.numErrorTerms (B id))

/-- `errorTermImplementation(idx)` (306-320). -/
def errorTerm (B : Nat → Batch V) (m : Merged V) (idx : Nat) : Out Nat := do
  let r ← getErrorIdx B idx m.problems 0
  Batch.errorTerm (B r.1) r.2

/-- `permuteOptimizationProblems` (329-332). -/
def permuteProblems (m : Merged V) (p : List Nat) : Out Unit × Merged V :=
  let r := Batch.doPermute p m.problems
  (r.1, { m with problems := r.2 })

/-- `permuteDesignVariables` (334-341). -/
def permuteDesignVariables (m : Merged V) (p : List Nat) (g : Nat) : Out Unit × Merged V :=
  match m.groups.find g with
  | none => (.raise, m)
  | some l =>
    let r := Batch.doPermute p l
    (r.1, { m with groups := m.groups.set g r.2 })

/-- `saveDesignVariables` (415-420). -/
def saveDesignVariables (m : Merged V) (mem : Nat → V) : Merged V :=
  { m with backup := m.counts.foldl (fun k e => FMap.set k e.1 (mem e.1)) m.backup }

/-- `restoreDesignVariables` (422-426): the memory afterwards. -/
def restoreDesignVariables (m : Merged V) (mem : Nat → V) : Nat → V :=
  m.backup.foldl (fun f e => Function.update f e.1 e.2) mem

/-- Operations on the merged problem. -/
inductive Op (V : Type) where
  | add (id : Option Nat)
  | remove (idx : Nat)
  | removePtr (id : Nat)
  | clear
  | setOrdering (l : List Nat)
  | permuteProblems (p : List Nat)
  | permuteDV (p : List Nat) (g : Nat)
  | save
  | restore
  | assign (dv : Nat) (v : V)

/-- The merged problem and the memory holding parameter values. -/
structure World (V : Type) where
  m : Merged V
  mem : Nat → V

/-- One call. -/
def step (B : Nat → Batch V) (w : World V) : Op V → Out Unit × World V
  | .add id => let r := add B w.m id; (r.1, { w with m := r.2 })
  | .remove idx => let r := remove B w.m idx; (r.1, { w with m := r.2 })
  | .removePtr id => let r := removePtr B w.m id; (r.1, { w with m := r.2 })
  | .clear => (.ok (), { w with m := clear w.m })
  | .setOrdering l => let r := setGroupsOrdering w.m l; (r.1, { w with m := r.2 })
  | .permuteProblems p => let r := permuteProblems w.m p; (r.1, { w with m := r.2 })
  | .permuteDV p g => let r := permuteDesignVariables w.m p g; (r.1, { w with m := r.2 })
  | .save => (.ok (), { w with m := saveDesignVariables w.m w.mem })
  | .restore => (.ok (), { w with mem := restoreDesignVariables w.m w.mem })
  | .assign dv v => (.ok (), { w with mem := Function.update w.mem dv v })

/-- Outcomes and final world of a history. -/
def runFrom (B : Nat → Batch V) (w : World V) : List (Op V) → List (Out Unit) × World V
  | [] => ([], w)
  | op :: ops =>
    let r := step B w op
    let t := runFrom B r.2 ops
    (r.1 :: t.1, t.2)

def run (B : Nat → Batch V) (mem : Nat → V) (ops : List (Op V)) : List (Out Unit) × World V :=
  runFrom B ⟨Merged.empty, mem⟩ ops

end Kalibr.Merged
