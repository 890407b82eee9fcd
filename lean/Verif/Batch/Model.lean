import Verif.Common
import Verif.FMap
import Verif.Permute.Model

/-!
# Model of `aslam::calibration::OptimizationProblem` (one batch)

Source: `/repo/aslam_incremental_calibration/aslam_incremental_calibration/src/core/`
`OptimizationProblem.cpp`.

Design variables, error terms and groups are identified by natural numbers (pointers, group ids); a
null pointer is `none`.  The design variables an error term refers to are given by `deps`, fixed for
each error term.  Parameter values live in a memory outside the problem.
-/

namespace Kalibr.Batch

/-- `_designVariablesLookup`, `_errorTermsLookup`, `_designVariables`, `_errorTerms`,
`_groupsOrdering`, `_designVariablesBackup`. -/
structure Batch (V : Type) where
  lookup : FMap Nat Nat
  etLookup : List Nat
  groups : FMap Nat (List Nat)
  ets : List Nat
  order : List Nat
  backup : FMap Nat V

variable {V : Type}

def Batch.empty : Batch V := ⟨[], [], [], [], [], []⟩

/-- `isDesignVariableInProblem` (139-142). -/
def isDesignVariableInProblem (b : Batch V) (dv : Nat) : Bool := (b.lookup.find dv).isSome

/-- `isGroupInProblem` (114-116). -/
def isGroupInProblem (b : Batch V) (g : Nat) : Bool := (b.groups.find g).isSome

/-- `isErrorTermInProblem` (163-166). -/
def isErrorTermInProblem (b : Batch V) (et : Nat) : Bool := decide (et ∈ b.etLookup)

/-- `getGroupId(designVariable)` (95-102). -/
def getGroupId (b : Batch V) (dv : Nat) : Out Nat :=
  match b.lookup.find dv with
  | some g => .ok g
  | none => .raise

/-- `getDesignVariablesGroup` (53-60). -/
def getDesignVariablesGroup (b : Batch V) (g : Nat) : Out (List Nat) :=
  match b.groups.find g with
  | some l => .ok l
  | none => .raise

/-- `getNumGroups` (67-69). -/
def getNumGroups (b : Batch V) : Nat := b.order.length

/-- The duplicate and membership test of `setGroupsOrdering` (77-87); `seen` is `groupsLookup`. -/
def checkOrdering (groups : FMap Nat (List Nat)) : List Nat → List Nat → Bool
  | _, [] => true
  | seen, g :: gs =>
    if !(groups.find g).isSome then false
    else if g ∈ seen then false
    else checkOrdering groups (g :: seen) gs

/-- `setGroupsOrdering` (71-89). -/
def setGroupsOrdering (b : Batch V) (l : List Nat) : Out Unit × Batch V :=
  if l.length ≠ b.order.length then (.raise, b)
  else if checkOrdering b.groups [] l then (.ok (), { b with order := l })
  else (.raise, b)

/-- `addDesignVariable` (123-137). -/
def addDesignVariable (b : Batch V) (dv : Option Nat) (g : Nat) : Out Unit × Batch V :=
  match dv with
  | none => (.raise, b)
  | some dv =>
    if isDesignVariableInProblem b dv then (.raise, b)
    else (.ok (), { b with
      lookup := b.lookup.set dv g
      order := if !isGroupInProblem b g then b.order ++ [g] else b.order
      groups := b.groups.set g ((b.groups.find g).getD [] ++ [dv]) })

/-- `addErrorTerm` (144-161). -/
def addErrorTerm (deps : Nat → List Nat) (b : Batch V) (et : Option Nat) : Out Unit × Batch V :=
  match et with
  | none => (.raise, b)
  | some et =>
    if isErrorTermInProblem b et then (.raise, b)
    else if (deps et).all (isDesignVariableInProblem b) then
      (.ok (), { b with etLookup := et :: b.etLookup, ets := b.ets ++ [et] })
    else (.raise, b)

/-- `numDesignVariablesImplementation` (177-179). -/
def numDesignVariables (b : Batch V) : Nat := b.lookup.length

/-- The loop of `getGroupId(idx, …)` (243-257). -/
def locate (groups : FMap Nat (List Nat)) (idx : Nat) : List Nat → Nat → Out (Nat × Nat)
  | [], run => .ok (0, idx - run)
  | g :: gs, run =>
    match groups.find g with
    | none => .raise
    | some l => if idx < run + l.length then .ok (g, idx - run) else locate groups idx gs (run + l.length)

/-- `designVariableImplementation(idx)` (181-193) with `getGroupId(idx, …)` (238-258). -/
def designVariable (b : Batch V) (idx : Nat) : Out Nat :=
  if numDesignVariables b ≤ idx then .raise else do
    let r ← locate b.groups idx b.order 0
    match b.groups.find r.1 with
    | none => .raise
    | some l =>
      match l[r.2]? with
      | some dv => .ok dv
      | none => .ub

/-- `numErrorTermsImplementation` (195-198). -/
def numErrorTerms (b : Batch V) : Nat := b.etLookup.length

/-- `errorTermImplementation(idx)` (200-216). -/
def errorTerm (b : Batch V) (idx : Nat) : Out Nat :=
  match b.ets[idx]? with
  | some et => .ok et
  | none => .raise

/-- `permute` as called by the problem: a call that never returns is shown as `ub`. -/
def doPermute (p l : List Nat) : Out Unit × List Nat :=
  match Permute.permute (l.length + 1) p l with
  | some r => r
  | none => (.ub, l)

/-- `permuteErrorTerms` (224-227). -/
def permuteErrorTerms (b : Batch V) (p : List Nat) : Out Unit × Batch V :=
  let r := doPermute p b.ets
  (r.1, { b with ets := r.2 })

/-- `permuteDesignVariables` (229-236). -/
def permuteDesignVariables (b : Batch V) (p : List Nat) (g : Nat) : Out Unit × Batch V :=
  match b.groups.find g with
  | none => (.raise, b)
  | some l =>
    let r := doPermute p l
    (r.1, { b with groups := b.groups.set g r.2 })

/-- `saveDesignVariables` (260-265). -/
def saveDesignVariables (b : Batch V) (mem : Nat → V) : Batch V :=
  { b with backup := b.lookup.foldl (fun k e => FMap.set k e.1 (mem e.1)) b.backup }

/-- `restoreDesignVariables` (267-271): the memory afterwards. -/
def restoreDesignVariables (b : Batch V) (mem : Nat → V) : Nat → V :=
  b.backup.foldl (fun m e => Function.update m e.1 e.2) mem

/-- Operations; `assign` stands for any change of a parameter from outside (an optimiser step). -/
inductive Op (V : Type) where
  | addDV (dv : Option Nat) (g : Nat)
  | addET (et : Option Nat)
  | setOrdering (l : List Nat)
  | permuteDV (p : List Nat) (g : Nat)
  | permuteET (p : List Nat)
  | save
  | restore
  | clear
  | assign (dv : Nat) (v : V)

/-- The problem and the memory holding parameter values. -/
structure World (V : Type) where
  b : Batch V
  mem : Nat → V

/-- One call. -/
def step (deps : Nat → List Nat) (w : World V) : Op V → Out Unit × World V
  | .addDV dv g => let r := addDesignVariable w.b dv g; (r.1, { w with b := r.2 })
  | .addET et => let r := addErrorTerm deps w.b et; (r.1, { w with b := r.2 })
  | .setOrdering l => let r := setGroupsOrdering w.b l; (r.1, { w with b := r.2 })
  | .permuteDV p g => let r := permuteDesignVariables w.b p g; (r.1, { w with b := r.2 })
  | .permuteET p => let r := permuteErrorTerms w.b p; (r.1, { w with b := r.2 })
  | .save => (.ok (), { w with b := saveDesignVariables w.b w.mem })
  | .restore => (.ok (), { w with mem := restoreDesignVariables w.b w.mem })
  | .clear => (.ok (), { w with b := Batch.empty })   -- `clear` 168-175
  | .assign dv v => (.ok (), { w with mem := Function.update w.mem dv v })

/-- Outcomes and final world of a history. -/
def runFrom (deps : Nat → List Nat) (w : World V) : List (Op V) → List (Out Unit) × World V
  | [] => ([], w)
  | op :: ops =>
    let r := step deps w op
    let t := runFrom deps r.2 ops
    (r.1 :: t.1, t.2)

def run (deps : Nat → List Nat) (mem : Nat → V) (ops : List (Op V)) : List (Out Unit) × World V :=
  runFrom deps ⟨Batch.empty, mem⟩ ops

end Kalibr.Batch
