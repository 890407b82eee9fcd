import Mathlib.Data.Nat.Notation
import Mathlib.Data.List.Basic
import Verif.Common

/-!
# The simple optimization problem and the adapter of design variables

Models `/repo/aslam_optimizer/aslam_backend/src/SimpleOptimizationProblem.cpp` and
`/repo/aslam_optimizer/aslam_backend/include/aslam_backend/backend/implementation/DesignVariableAdapter.hpp`.  An object is a number.
A shared pointer is the object, its control block and whether the block deletes the object; the object is deleted when the
last shared pointer of the block goes.  The shared pointers of the caller are a third list beside the two of the problem.
Weak pointers, memory that runs out and accesses beyond the end are not modelled.
-/

namespace Kalibr.Simple

/-- A `boost::shared_ptr`: the object, the control block, and whether the deleter is `delete` rather than `sm::null_deleter`. -/
structure Handle where
  p : ℕ
  ctl : ℕ
  own : Bool

/-- The members of the problem (SimpleOptimizationProblem.hpp:61-62), the shared pointers of the caller, the next control
block and the objects deleted so far. -/
structure State where
  dvs : List Handle := []
  ets : List Handle := []
  user : List Handle := []
  fresh : ℕ := 0
  log : List ℕ := []

/-- What the release of a shared pointer deletes while the others are `rest`. -/
def release (rest : List Handle) (h : Handle) : List ℕ :=
  if h.own = true ∧ ∀ g ∈ rest, g.ctl ≠ h.ctl then [h.p] else []

/-- What `clear` of a vector of shared pointers deletes, from the front, while the others are `rest`. -/
def drops : List Handle → List Handle → List ℕ
  | [], _ => []
  | h :: t, rest => release (t ++ rest) h ++ drops t rest

/-- The test at the head of both `addDesignVariable`s (SimpleOptimizationProblem.cpp:24-26, 38-40). -/
def State.has (s : State) (p : ℕ) : Bool := s.dvs.any fun h => h.p == p

/-- `addDesignVariable(DesignVariable*, bool)` (SimpleOptimizationProblem.cpp:21-31), with whether it raised. -/
def State.addDv (s : State) (p : ℕ) (own : Bool) : State × Bool :=
  if s.has p then (s, true)
  else ({ s with dvs := s.dvs ++ [⟨p, s.fresh, own⟩], fresh := s.fresh + 1 }, false)

/-- `addDesignVariable(boost::shared_ptr<DesignVariable>)` (SimpleOptimizationProblem.cpp:35-42). -/
def State.addDvShared (s : State) (h : Handle) : State × Bool :=
  if s.has h.p then (s, true) else ({ s with dvs := s.dvs ++ [h] }, false)

/-- `addErrorTerm(boost::shared_ptr<ErrorTerm>)` (SimpleOptimizationProblem.cpp:59-62). -/
def State.addEtShared (s : State) (h : Handle) : State := { s with ets := s.ets ++ [h] }

/-- `addErrorTerm(ErrorTerm*, bool)` (SimpleOptimizationProblem.cpp:48-55). -/
def State.addEt (s : State) (p : ℕ) (own : Bool) : State :=
  { s with fresh := s.fresh + 1 }.addEtShared ⟨p, s.fresh, own⟩

/-- `isDesignVariableInProblem` (SimpleOptimizationProblem.cpp:65-72). -/
def State.isIn (s : State) (p : ℕ) : Bool := s.dvs.any fun h => h.p == p

/-- `clear` (SimpleOptimizationProblem.cpp:75-79), and the destructor, which destroys the members in the order opposite to
their declaration (SimpleOptimizationProblem.cpp:13-15, SimpleOptimizationProblem.hpp:61-62). -/
def State.clear (s : State) : State :=
  let s := { s with ets := [], log := s.log ++ drops s.ets (s.dvs ++ s.user) }
  { s with dvs := [], log := s.log ++ drops s.dvs s.user }

/-- What the caller does: the calls above, making a shared pointer for a new object and dropping a shared pointer. -/
inductive Op where
  | addDv (p : ℕ) (own : Bool)
  | addDvShared (j : ℕ)
  | addEt (p : ℕ) (own : Bool)
  | addEtShared (j : ℕ)
  | clear
  | make (p : ℕ)
  | drop (j : ℕ)

/-- One step; a call that raises is caught and the program goes on. -/
def State.step (s : State) : Op → State
  | .addDv p own => (s.addDv p own).1
  | .addDvShared j => if h : j < s.user.length then (s.addDvShared s.user[j]).1 else s
  | .addEt p own => s.addEt p own
  | .addEtShared j => if h : j < s.user.length then s.addEtShared s.user[j] else s
  | .clear => s.clear
  | .make p => { s with user := s.user ++ [⟨p, s.fresh, true⟩], fresh := s.fresh + 1 }
  | .drop j =>
    if h : j < s.user.length then
      { s with user := s.user.eraseIdx j, log := s.log ++ release (s.ets ++ s.dvs ++ s.user.eraseIdx j) s.user[j] }
    else s

/-- A program. -/
def State.run (s : State) (l : List Op) : State := l.foldl State.step s

/-- The type wrapped by the adapter. -/
structure Wrapped (V P D : Type) where
  get : V → P
  set : P → V → V
  upd : D → V → V

/-- The adapter (DesignVariableAdapter.hpp): the variable and `_backup`. -/
structure Adapter (V P : Type) where
  v : V
  backup : P

/-- `update`, `setParameters`, `revertUpdate`. -/
inductive Edit (P D : Type) where
  | update (d : D)
  | setParameters (p : P)
  | revert

/-- `updateImplementation`, `setParametersImplementation`, `revertUpdateImplementation`
(implementation/DesignVariableAdapter.hpp:43-55, 86-90). -/
def Adapter.edit {V P D : Type} (w : Wrapped V P D) (a : Adapter V P) : Edit P D → Adapter V P
  | .update d =>
    let a := { a with backup := w.get a.v }
    { a with v := w.upd d a.v }
  | .setParameters p =>
    let a := { a with backup := w.get a.v }
    { a with v := w.set p a.v }
  | .revert => { a with v := w.set a.backup a.v }

/-- `minimalDifferenceImplementation` (implementation/DesignVariableAdapter.hpp:93-96): what is in the output afterwards. -/
def Adapter.minimalDifference {V P O : Type} (_ : Adapter V P) (_ : P) (out : O) : O := out

end Kalibr.Simple
