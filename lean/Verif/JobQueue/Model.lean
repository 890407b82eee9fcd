import Verif.Common
import Verif.Tactics

/-!
# Model of `sm::JobQueue`

Source: `/repo/Schweizer-Messer/sm_boost/src/JobQueue.cpp`.

Threads are interleaved at the points where the mutex is taken or given up and, since `killWorkers_` is
written without the mutex, also between the places where a worker reads that flag.  The mutex is held by
a worker exactly in the states for which `WPc.holds`; the other critical sections (of `scheduleWork`,
`waitForEmptyQueue` and the destructor) read no unprotected data and are one step each.  A condition
variable may wake a thread spuriously.  `notify_all` wakes every thread that sleeps on the condition.

A job is known by its ticket, the number of jobs scheduled before it.  `sched`, `taken`, `begun` and
`ended` are ghost state: the history of the jobs.
Simplifications: jobs do not throw; the unsynchronised access to the `volatile` flag is atomic; `empty`
and `scheduleFuture` (a `scheduleWork` of the packaged task) are not modelled separately.
-/

namespace Kalibr.JobQueue

/-- Where a worker is in `exec_loop`, lines 58-80. -/
inductive WPc
  /-- created by `start`, the mutex not yet taken (before line 59) -/
  | start
  /-- has the mutex, about to evaluate the condition of the waiting loop (line 62) -/
  | top
  /-- has the mutex, the condition was true, about to wait (line 63) -/
  | goWait
  /-- sleeps on `condition_` without the mutex -/
  | asleep
  /-- woken, has to take the mutex again -/
  | wake
  /-- has the mutex, past the waiting loop (line 64) -/
  | chk
  /-- has given up the mutex with job `j` in hand (line 73) -/
  | got (j : Nat)
  /-- inside the job (line 75) -/
  | run (j : Nat)
  /-- the job has returned, has to take the mutex (line 76) -/
  | ran
  /-- has returned from `exec_loop` -/
  | exited
  deriving DecidableEq

/-- The worker has the mutex. -/
def WPc.holds : WPc → Bool
  | .top | .goWait | .chk => true
  | _ => false

/-- A call of `waitForEmptyQueue`; `n` is the number of jobs scheduled when it was called. -/
inductive VPc
  /-- called or woken, has to take the mutex -/
  | check (n : Nat)
  /-- sleeps on `workCondition_` -/
  | asleep (n : Nat)
  /-- returned -/
  | done (n : Nat)
  deriving DecidableEq

/-- The destructor. -/
inductive DPc
  | none
  | asleep
  | wake
  | returned
  deriving DecidableEq

structure St where
  q : List Nat
  kill : Bool
  pool : Nat
  active : Nat
  started : Bool
  workers : List WPc
  waiters : List VPc
  dtor : DPc
  ub : Bool
  sched : Nat
  taken : Nat
  begun : List Nat
  ended : List Nat
  deriving DecidableEq

/-- Constructor, line 5. -/
def init : St := ⟨[], false, 0, 0, false, [], [], .none, false, 0, 0, [], []⟩

/-- Nobody has the mutex. -/
def St.free (s : St) : Bool := s.workers.all fun w => !w.holds

/-- A worker that sleeps on `condition_` is woken. -/
def WPc.notified : WPc → WPc
  | .asleep => .wake
  | w => w

/-- The destructor sleeping on `condition_` is woken. -/
def DPc.notified : DPc → DPc
  | .asleep => .wake
  | d => d

/-- A call of `waitForEmptyQueue` sleeping on `workCondition_` is woken. -/
def VPc.notified : VPc → VPc
  | .asleep n => .check n
  | v => v

/-- `condition_.notify_all()`. -/
def St.notify (s : St) : St :=
  { s with workers := s.workers.map WPc.notified, dtor := s.dtor.notified }

/-- `workCondition_.notify_all()`. -/
def St.notifyWork (s : St) : St := { s with waiters := s.waiters.map VPc.notified }

/-- One step of worker `i`. -/
def St.worker (s : St) (i : Nat) : Option St :=
  match s.workers[i]? with
  | some .start =>
    -- lines 59-60
    if s.dtor = .returned then some { s with ub := true }
    else if s.free then some { s with workers := s.workers.set i .top, pool := s.pool + 1 } else none
  | some .top =>
    -- line 62
    if s.q.isEmpty && !s.kill then some { s with workers := s.workers.set i .goWait }
    else some { s with workers := s.workers.set i .chk }
  | some .goWait =>
    -- line 63
    some { s with workers := s.workers.set i .asleep }
  | some .wake =>
    if s.free then some { s with workers := s.workers.set i .top } else none
  | some .chk =>
    -- lines 64-68
    if s.kill then
      some { s with workers := s.workers.set i .exited, pool := s.pool - 1 }.notify
    else
      -- lines 69-73
      match s.q with
      | [] => some { s with ub := true }
      | j :: q => some { s with workers := s.workers.set i (.got j), q := q, active := s.active + 1,
                                taken := s.taken + 1 }
  | some (.got j) => some { s with workers := s.workers.set i (.run j), begun := s.begun ++ [j] }
  | some (.run j) => some { s with workers := s.workers.set i .ran, ended := s.ended ++ [j] }
  | some .ran =>
    -- lines 76-78
    if s.free then
      some { s with workers := s.workers.set i .top, active := s.active - 1 }.notifyWork
    else none
  | _ => none

/-- What can happen next. -/
inductive Lbl
  /-- `start(n)` is called -/
  | create (n : Nat)
  /-- `scheduleWork` is called -/
  | schedule
  /-- `stop()`, also the first line of `join` -/
  | stop
  /-- the `notify_all` of `join`, line 39 -/
  | notify
  /-- worker `i` goes on -/
  | w (i : Nat)
  /-- worker `i` is woken spuriously -/
  | spur (i : Nat)
  /-- `waitForEmptyQueue` is called -/
  | call
  /-- the `i`-th call of `waitForEmptyQueue` goes on -/
  | v (i : Nat)
  /-- it is woken spuriously -/
  | vspur (i : Nat)
  /-- the destructor is called -/
  | dtor
  /-- it goes on -/
  | d
  /-- it is woken spuriously -/
  | dspur
  deriving DecidableEq

/-- One step; `none` when it cannot happen. -/
def step (s : St) : Lbl → Option St
  | .create n =>
    -- lines 21-30
    if s.started then some s
    else some { s with started := true, workers := List.replicate n .start }
  | .schedule =>
    -- lines 14-19
    if s.free then some { s with q := s.q ++ [s.sched], sched := s.sched + 1 }.notify else none
  | .stop => some { s with kill := true }
  | .notify => some s.notify
  | .w i => s.worker i
  | .spur i =>
    match s.workers[i]? with
    | some .asleep => some { s with workers := s.workers.set i .wake }
    | _ => none
  | .call => some { s with waiters := s.waiters ++ [.check s.sched] }
  | .v i =>
    -- lines 49-56
    match s.waiters[i]? with
    | some (.check n) =>
      if s.free then
        if s.active ≠ 0 || !s.q.isEmpty then some { s with waiters := s.waiters.set i (.asleep n) }
        else some { s with waiters := s.waiters.set i (.done n) }
      else none
    | _ => none
  | .vspur i =>
    match s.waiters[i]? with
    | some (.asleep n) => some { s with waiters := s.waiters.set i (.check n) }
    | _ => none
  | .dtor =>
    -- lines 6-12
    if s.dtor = .none ∧ s.free then
      let s := { s with kill := true }.notify
      some { s with dtor := if s.pool ≠ 0 then .asleep else .returned }
    else none
  | .d =>
    if s.dtor = .wake ∧ s.free then some { s with dtor := if s.pool ≠ 0 then .asleep else .returned }
    else none
  | .dspur => if s.dtor = .asleep then some { s with dtor := .wake } else none

/-- A sequence of steps; `none` if one of them cannot happen. -/
def exec : St → List Lbl → Option St
  | s, [] => some s
  | s, l :: ls => (step s l).bind fun s => exec s ls

/-- States that some schedule of any number of threads leads to. -/
def Reachable (s : St) : Prop := ∃ ls, exec init ls = some s

end Kalibr.JobQueue
