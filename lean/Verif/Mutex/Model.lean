import Mathlib.Logic.Function.Basic
import Mathlib.Data.Int.Notation
import Mathlib.Data.Nat.Notation

/-!
# The mutex and the condition of the incremental calibration

A model of `aslam_incremental_calibration/aslam_incremental_calibration/src/base/Mutex.cpp` and `Condition.cpp`: one
`Mutex` and one `Condition` that is used with it, and any number of threads.  Every function of the two classes
holds the POSIX mutex of the `Mutex` from its first to its last line, but for the time in `pthread_cond_wait` and
`pthread_cond_timedwait`.  So the steps of the model are the stretches between two such points, and a schedule is
any list of them.  POSIX allows a thread to wake up for no reason, and `pthread_cond_signal` to choose any of the
threads that wait; both choices are part of the schedule.

Not modelled: the state of a registered `Thread`, which `Condition::safeWait` sets to waiting and back
(Condition.cpp:73-86, 91-96); failures of the POSIX calls; the destruction of a mutex; `pthread_t` values are
numbers and no thread has the value that stands for no owner.
-/

namespace Kalibr.Mutex

/-- A thread, `pthread_self()`. -/
abbrev Tid := ℕ

/-- How long a call is to wait, by the comparisons of `Condition::safeWait` (Condition.cpp:87-90): not at all
(zero and less), until some time, or for ever (`Timer::eternal()`, Timer.cpp:140-142). -/
inductive W where
  | no
  | until
  | eternal
  deriving DecidableEq, Repr

/-- Where a thread is. -/
inductive Ph where
  /-- in no function of the two classes -/
  | idle
  /-- in `lock`, in the loops of Mutex.cpp:177-178 (eternal) and 185-187 (timed) -/
  | lockW (timed : Bool)
  /-- in `waitUnlock`, in the same loops -/
  | unlW (timed : Bool)
  /-- in `Condition::wait`, in the waits of Condition.cpp:102 and 112 -/
  | condW (timed : Bool)
  /-- in `Condition::wait`, in the loops of the mutex that Condition.cpp:104 and 115 call -/
  | condM (timed : Bool)
  /-- in `Condition::wait`, in the lock of Condition.cpp:62, with the result so far -/
  | condL (result : Bool)
  deriving DecidableEq, Repr

/-- What a step shows to the outside. -/
inductive Ev where
  /-- `lock` or `tryLock` returned true -/
  | acquired (t : Tid)
  /-- `lock` or `tryLock` returned false -/
  | failed (t : Tid)
  /-- `unlock` returned -/
  | released (t : Tid)
  /-- `Condition::wait` has given up the mutex -/
  | condReleased (t : Tid)
  /-- `Condition::wait` returned -/
  | condReturned (t : Tid) (result : Bool)
  /-- `waitUnlock` returned -/
  | sawUnlocked (t : Tid) (result : Bool)
  /-- an exception left the function -/
  | raised (t : Tid)
  /-- nothing returned -/
  | nothing
  deriving DecidableEq, Repr

/-- The members of the mutex (Mutex.h:116-123), where the threads are, which of them have been signalled and not
yet run, and whether the POSIX mutex was left locked by a function that has ended. -/
structure Sys where
  recursive : Bool
  numLocks : ℕ
  owner : Option Tid
  ph : Tid → Ph
  sig : Tid → Bool
  stuck : Bool

/-- A new mutex (Mutex.cpp:39-44). -/
def Sys.init (recursive : Bool) : Sys := ⟨recursive, 0, none, fun _ => .idle, fun _ => false, false⟩

/-- Threads that wait on the condition the mutex itself is. -/
def Ph.onMutex : Ph → Bool
  | .lockW _ => true
  | .unlW _ => true
  | .condM _ => true
  | .condL _ => true
  | _ => false

/-- Threads that wait on the separate condition. -/
def Ph.onCond : Ph → Bool
  | .condW _ => true
  | _ => false

/-- `signal()` of the mutex (Mutex.cpp:171, Condition.cpp:47-52): `pick` is the thread that is unblocked. -/
def Sys.signalM (s : Sys) (pick : Tid) : Sys :=
  if (s.ph pick).onMutex then { s with sig := Function.update s.sig pick true } else s

/-- Move a thread. -/
def Sys.move (s : Sys) (t : Tid) (p : Ph) : Sys :=
  { s with ph := Function.update s.ph t p, sig := Function.update s.sig t false }

/-- `++mNumLocks; mOwner = pthread_self()` (Mutex.cpp:156-157), and the function returns. -/
def Sys.take (s : Sys) (t : Tid) : Sys :=
  { (s.move t .idle) with numLocks := s.numLocks + 1, owner := some t }

/-- `safeLock` (Mutex.cpp:144-161) as `lock` calls it. -/
def lockStep (s : Sys) (t : Tid) (w : W) : Sys × Ev :=
  if s.owner = some t then
    if s.recursive then ({ s with numLocks := s.numLocks + 1 }, .acquired t) else (s, .raised t)
  else if s.numLocks ≠ 0 then
    match w with
    | .eternal => (s.move t (.lockW false), .nothing)
    | .until => (s.move t (.lockW true), .nothing)
    | .no => (s.take t, .acquired t)
  else (s.take t, .acquired t)

/-- `safeUnlock` (Mutex.cpp:163-173); `none` if it throws. -/
def safeUnlock (s : Sys) (t : Tid) (pick : Tid) : Option Sys :=
  if s.numLocks = 0 then none
  else if s.owner ≠ some t then none
  else
    let s := { s with numLocks := s.numLocks - 1 }
    if s.numLocks = 0 then some (({ s with owner := none } : Sys).signalM pick) else some s

/-- `mutex.safeLock(Timer::eternal())` at the end of `Condition::wait` (Condition.cpp:62-68).  The throw leaves the
POSIX mutex locked. -/
def relock (s : Sys) (t : Tid) (r : Bool) : Sys × Ev :=
  if s.owner = some t then
    if s.recursive then ({ (s.move t .idle) with numLocks := s.numLocks + 1 }, .condReturned t r)
    else ({ (s.move t .idle) with stuck := true }, .raised t)
  else if s.numLocks ≠ 0 then (s.move t (.condL r), .nothing)
  else (s.take t, .condReturned t r)

/-- The steps of a schedule. -/
inductive Act where
  /-- `lock(w)`, and `tryLock()`, which is `lock(0.0)` (Mutex.cpp:125-127) -/
  | lock (t : Tid) (w : W)
  | unlock (t pick : Tid)
  | waitUnlock (t : Tid) (w : W) (pick : Tid)
  | cwait (t : Tid) (w : W) (pick : Tid)
  | csignal (pick : Tid)
  | cbroadcast
  /-- the thread runs on behind its wait, because of a signal or for no reason -/
  | wake (t pick : Tid)
  /-- the time of the thread is over -/
  | timeout (t : Tid)

/-- One step.  A thread that is in a function cannot call another one; while the POSIX mutex is locked nothing
happens. -/
def step (s : Sys) (a : Act) : Sys × Ev :=
  if s.stuck then (s, .nothing) else
  match a with
  | .lock t w => if s.ph t = .idle then lockStep s t w else (s, .nothing)
  | .unlock t pick =>
    -- Mutex.cpp:93-109
    if s.ph t = .idle then
      match safeUnlock s t pick with
      | some s' => (s', .released t)
      | none => (s, .raised t)
    else (s, .nothing)
  | .waitUnlock t w pick =>
    -- Mutex.cpp:111-123, Condition.cpp:87-90
    if s.ph t = .idle then
      match w with
      | .no => (s.signalM pick, .sawUnlocked t true)
      | .until => if s.numLocks ≠ 0 then (s.move t (.unlW true), .nothing) else (s.signalM pick, .sawUnlocked t true)
      | .eternal => if s.numLocks ≠ 0 then (s.move t (.unlW false), .nothing) else (s.signalM pick, .sawUnlocked t true)
    else (s, .nothing)
  | .cwait t w pick =>
    -- Condition.cpp:54-69; without a time to wait it returns true and has no effect
    if s.ph t = .idle then
      match w with
      | .no => (s, .nothing)
      | .until =>
        match safeUnlock s t pick with
        | some s' => (s'.move t (.condW true), .condReleased t)
        | none => ({ s with stuck := true }, .raised t)
      | .eternal =>
        match safeUnlock s t pick with
        | some s' => (s'.move t (.condW false), .condReleased t)
        | none => ({ s with stuck := true }, .raised t)
    else (s, .nothing)
  | .csignal pick =>
    -- Condition.cpp:47-52
    if (s.ph pick).onCond then ({ s with sig := Function.update s.sig pick true }, .nothing) else (s, .nothing)
  | .cbroadcast => ({ s with sig := fun t => if (s.ph t).onCond then true else s.sig t }, .nothing)
  | .wake t pick =>
    match s.ph t with
    | .idle => (s, .nothing)
    | .lockW tm =>
      -- Mutex.cpp:177-178, 185-187, then 155-158
      if s.numLocks ≠ 0 then (s.move t (.lockW tm), .nothing) else (s.take t, .acquired t)
    | .unlW tm =>
      -- then Mutex.cpp:116-117
      if s.numLocks ≠ 0 then (s.move t (.unlW tm), .nothing)
      else ((s.move t .idle).signalM pick, .sawUnlocked t true)
    | .condW tm =>
      -- Condition.cpp:103-104, 114-115
      if s.numLocks ≠ 0 then (s.move t (.condM tm), .nothing) else relock s t true
    | .condM tm => if s.numLocks ≠ 0 then (s.move t (.condM tm), .nothing) else relock s t true
    | .condL r => if s.numLocks ≠ 0 then (s.move t (.condL r), .nothing) else (s.take t, .condReturned t r)
  | .timeout t =>
    -- a thread that was signalled before its time was over returns from the wait as signalled
    if s.sig t then (s, .nothing) else
    match s.ph t with
    | .lockW true => (s.move t .idle, .failed t)
    | .unlW true => (s.move t .idle, .sawUnlocked t false)
    | .condW true => relock s t false
    | .condM true => relock s t false
    | _ => (s, .nothing)

/-- A schedule: the state at its end and all that was seen, in order. -/
def run (s : Sys) : List Act → Sys × List Ev
  | [] => (s, [])
  | a :: as =>
    let (s', e) := step s a
    let (s'', es) := run s' as
    (s'', e :: es)

/-! ## Specification -/

/-- What an event changes in the number of times a thread holds the mutex: one more for a call that gave it the
mutex, one less for a call that took it. -/
def change (t : Tid) : Ev → ℤ
  | .acquired u => if u = t then 1 else 0
  | .condReturned u _ => if u = t then 1 else 0
  | .released u => if u = t then -1 else 0
  | .condReleased u => if u = t then -1 else 0
  | _ => 0

/-- How often a thread holds the mutex after all that was seen. -/
def holds (t : Tid) : List Ev → ℤ
  | [] => 0
  | e :: es => change t e + holds t es

/-- The call does not ask for the mutex without waiting. -/
def Act.waits : Act → Prop
  | .lock _ .no => False
  | _ => True

end Kalibr.Mutex
