import Verif.Merged.Model

/-!
# Specification of the merged problem

Everything is said about the list of live batches and the batches' own answers.
-/

namespace Kalibr.Merged

open Kalibr.Batch (Batch)

variable {V : Type}

/-- Every batch was built through its own interface. -/
def Built (deps : Nat → List Nat) (B : Nat → Batch V) : Prop :=
  ∀ id, ∃ mem ops, B id = (Batch.run deps mem ops).2.b

/-- Every `add` of the history returned. -/
def AddsReturn (ops : List (Op V)) (outs : List (Out Unit)) : Prop :=
  ∀ (i : Nat) id, ops[i]? = some (.add id) → outs[i]? = some (.ok ())

/-- Some live batch has the variable in the group. -/
def Live (B : Nat → Batch V) (ids : List Nat) (dv g : Nat) : Prop :=
  ∃ id ∈ ids, Batch.getGroupId (B id) dv = .ok g

/-- Some live batch has the error term. -/
def LiveTerm (B : Nat → Batch V) (ids : List Nat) (et : Nat) : Prop :=
  ∃ id ∈ ids, Batch.isErrorTermInProblem (B id) et = true

end Kalibr.Merged
