import Verif.Common
import Mathlib.Data.Nat.Notation
import Mathlib.Logic.Function.Basic

/-!
# Singletons

A model of `Singleton<C>` (aslam_incremental_calibration/aslam_incremental_calibration/include/
aslam_incremental_calibration/base/Singleton.tpp:31-65).  Objects are numbered in the order in which they are made.  The class
`C` is left open: its constructor may succeed or throw.  First one thread is modelled, then any number of threads that call
`getInstance`, whose reads and writes of the static pointer are the steps (without a data race having other effects).
-/

namespace Kalibr.Single

/-- The static pointer, the objects that exist and the number of the next one. -/
structure St where
  instance' : Option ℕ
  live : List ℕ
  next : ℕ

/-- The program starts with a null pointer (Singleton.tpp:28). -/
def St.new : St := ⟨none, [], 0⟩

/-- The constructor (Singleton.tpp:34-40), and the one of `C`, which succeeds.  If it throws no object is there. -/
def construct (s : St) : Out St :=
  if s.instance'.isSome then .raise else .ok { instance' := some s.next, live := s.next :: s.live, next := s.next + 1 }

/-- The destructor (Singleton.tpp:42-45) of the object `a`. -/
def destroy (s : St) (a : ℕ) : Out St :=
  if a ∈ s.live then .ok { s with instance' := none, live := s.live.erase a } else .ub

/-- `getInstance` (Singleton.tpp:51-56): the object and the state. -/
def getInstance (s : St) : Out (ℕ × St) :=
  (if s.instance'.isNone then construct s else .ok s).bind fun s =>
    match s.instance' with
    | some p => .ok (p, s)
    | none => .ub

/-- `exists` (Singleton.tpp:62-65). -/
def exists' (s : St) : Bool := s.instance'.isSome

/-- What a program does. -/
inductive Op
  | get
  /-- an object of the class is made -/
  | make
  /-- an object of the class is made, and the constructor of `C` throws after the one of `Singleton` -/
  | makeFails
  | destroy (a : ℕ)

/-- One of them; an exception leaves the program running. -/
def step (s : St) : Op → Out St
  | .get => match getInstance s with
    | .ok r => .ok r.2
    | .raise => .ok s
    | .ub => .ub
  | .make => match construct s with
    | .raise => .ok s
    | r => r
  | .makeFails => match construct s with
    | .ok t => (destroy t s.next)
    | .raise => .ok s
    | .ub => .ub
  | .destroy a => destroy s a

/-- A program. -/
def run (s : St) : List Op → Out St
  | [] => .ok s
  | o :: os => (step s o).bind fun s => run s os

/-! ## Threads -/

/-- Where a thread is in `getInstance`. -/
inductive Pc
  | check
  | ctor
  | write
  | ret
  | done (p : ℕ)
  | raised
  | ub
deriving DecidableEq

/-- All threads. -/
structure World where
  s : St
  pc : ℕ → Pc

/-- One step of thread `t` (Singleton.tpp:52-55, 36-39). -/
def tstep (w : World) (t : ℕ) : World :=
  match w.pc t with
  | .check => { w with pc := Function.update w.pc t (if w.s.instance'.isNone then .ctor else .ret) }
  | .ctor => { w with pc := Function.update w.pc t (if w.s.instance'.isSome then .raised else .write) }
  | .write => { s := { instance' := some w.s.next, live := w.s.next :: w.s.live, next := w.s.next + 1 },
                pc := Function.update w.pc t .ret }
  | .ret => match w.s.instance' with
    | some p => { w with pc := Function.update w.pc t (.done p) }
    | none => { w with pc := Function.update w.pc t .ub }
  | _ => w

/-- A schedule. -/
def sched (w : World) (l : List ℕ) : World := l.foldl tstep w

end Kalibr.Single
