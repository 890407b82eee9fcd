import Mathlib.Logic.Function.Basic
import Mathlib.Data.Nat.Notation

/-!
# The threads of the incremental calibration

A model of `aslam_incremental_calibration/aslam_incremental_calibration/src/base/Thread.cpp` and `Threads.cpp`: one
object of a class derived from `Thread`, any number of other threads that call its functions, and the POSIX threads
that run it.  Every function holds the mutex of the object from its first to its last line, but for the time it
waits on one of the three conditions; that the mutex excludes is the matter of `Verif.Mutex`.  So the steps of the model
are the stretches between two such points, and a schedule is any list of them.  Threads may wake up for no reason.

Not modelled: exceptions that leave `process()`, destruction (the destructor of the base class interrupts the thread when
the derived object is already gone), priorities, failures of POSIX calls other than `pthread_create`, other objects
in the list of registered threads, and the mutex of that list, which is held only within a step.
-/

namespace Kalibr.Thr

/-- `pthread_self()` of a thread that runs the object. -/
abbrev Wid := ℕ

/-- A thread that calls the functions of the object. -/
abbrev Cid := ℕ

/-- `Thread::State` (Thread.h:52-69) -/
inductive St where
  | initialized | starting | running | sleeping | waiting | interrupting | interrupted | finished
  deriving DecidableEq, Repr

/-- How long a call is to wait: not at all (zero or less: Thread.cpp:293 and Condition.cpp:56), until some time, or for
ever (`Timer::eternal()`). -/
inductive W where
  | no | until | eternal
  deriving DecidableEq, Repr

/-- `mCycle`: negative for one cycle only, a number of seconds, or `Timer::eternal()`. -/
inductive Cycle where
  | once | timed | eternal
  deriving DecidableEq, Repr

/-- Points in `run` (Thread.cpp:329-348) at which the thread does not hold the mutex. -/
inductive Pt where
  /-- behind `initialize()`, Line 330 -/
  | check
  /-- in `process()`, Line 335 -/
  | proc
  /-- behind the wait for the trigger, Lines 338-339 -/
  | stopped
  /-- in front of `cleanup()`, Line 345 -/
  | ending
  deriving DecidableEq, Repr

/-- Where a POSIX thread is. -/
inductive WPh where
  /-- there is none -/
  | gone
  /-- in front of `initialize()` -/
  | fresh
  | «at» (p : Pt)
  /-- at that point, and within a wait or a sleep that has set the state of the object and has kept the former one -/
  | rest (saved : St) (p : Pt)
  /-- in the wait for the trigger, Line 337; the state that is kept, if the thread is registered -/
  | trig (timed : Bool) (saved : Option St)
  deriving DecidableEq, Repr

/-- Where a caller is. -/
inductive CPh where
  | idle
  /-- in `start`, in the wait for the former run, Line 225 -/
  | startW (timed : Bool)
  /-- in `start`, in the wait of Line 252 -/
  | startS
  /-- in `interrupt`, Line 272, or in `wait`, Line 288 -/
  | waitW (timed : Bool)
  deriving DecidableEq, Repr

/-- What a step shows to the outside. -/
inductive Ev where
  /-- a POSIX thread was created -/
  | launched (t : Wid)
  /-- `process()` is called -/
  | procBegin (t : Wid)
  /-- `process()` has returned -/
  | procEnd (t : Wid)
  /-- the object was interrupted while it was busy -/
  | asked
  /-- the run is over -/
  | ended (t : Wid) (st : St)
  /-- an exception ended the program -/
  | crashed
  /-- the caller begins to wait in `interrupt` or `wait` -/
  | waits (c : Cid)
  /-- the function the caller is in returns -/
  | ret (c : Cid) (result : Bool)
  /-- an exception left the function -/
  | raised (c : Cid)
  deriving DecidableEq, Repr

/-- The members (Thread.h:225-248), the list of registered threads, by their identifier (Threads.h:92), the threads, which
of them have been signalled and not yet run, and whether the program has ended. -/
structure Sys where
  st : St
  cancel : Bool
  cycle : Cycle
  numCycles : ℕ
  ident : Option Wid
  reg : Option Wid → Bool
  wk : Wid → WPh
  cl : Cid → CPh
  sigC : Cid → Bool
  sigT : Wid → Bool
  dead : Bool

/-- A new object (Thread.cpp:69-76). -/
def Sys.init (cycle : Cycle) : Sys :=
  ⟨.initialized, false, cycle, 0, none, fun _ => false, fun _ => .gone, fun _ => .idle, fun _ => false, fun _ => false, false⟩

/-- `safeSetState` (Thread.cpp:101-108). -/
def Sys.set (s : Sys) (st : St) : Sys :=
  { s with st := if s.cancel = true ∧ st = .running then .interrupting else st }

/-- `safeIsBusy` (Thread.cpp:323-327). -/
def Sys.busy (s : Sys) : Prop := s.st ≠ .initialized ∧ s.st ≠ .interrupted ∧ s.st ≠ .finished

instance (s : Sys) : Decidable s.busy := by unfold Sys.busy; infer_instance

/-- Move a POSIX thread. -/
def Sys.goW (s : Sys) (t : Wid) (p : WPh) : Sys :=
  { s with wk := Function.update s.wk t p, sigT := Function.update s.sigT t false }

/-- Move a caller. -/
def Sys.goC (s : Sys) (c : Cid) (p : CPh) : Sys :=
  { s with cl := Function.update s.cl c p, sigC := Function.update s.sigC c false }

/-- Callers that wait for `mCleaned`. -/
def CPh.onCleaned : CPh → Bool
  | .startW _ => true
  | .waitW _ => true
  | _ => false

/-- Threads that wait for `mTrigger`. -/
def WPh.onTrigger : WPh → Bool
  | .trig _ _ => true
  | _ => false

/-- `mTrigger.signal()`: `pick` is the thread that is unblocked. -/
def Sys.trigger (s : Sys) (pick : Wid) : Sys :=
  if (s.wk pick).onTrigger then { s with sigT := Function.update s.sigT pick true } else s

/-- `start` behind its first wait (Thread.cpp:226-261): `id` is the thread `pthread_create` makes, if it can (`ok`).  If
not, the exception of Line 249 leaves the function. -/
def launch (s : Sys) (c : Cid) (id : Wid) (ok : Bool) : Sys × List Ev :=
  if s.wk id ≠ .gone then (s, [])
  else
    let s := ({ s with numCycles := 0 } : Sys).set .starting
    if ok then ((({ s with ident := some id } : Sys).goW id .fresh).goC c .startS, [.launched id])
    else (s.goC c .idle, [.raised c])

/-- `safeWait` with a time, of `interrupt` and `wait` (Thread.cpp:303-306). -/
def await (s : Sys) (c : Cid) (w : W) : Sys × List Ev :=
  match w with
  | .no => (s, [.ret c true])
  | .until => if s.busy then (s.goC c (.waitW true), [.waits c]) else (s, [.ret c true])
  | .eternal => if s.busy then (s.goC c (.waitW false), [.waits c]) else (s, [.ret c true])

/-- `interrupt` in front of its wait (Thread.cpp:268-271). -/
def Sys.ask (s : Sys) (pick : Wid) : Sys :=
  let s := { s with cancel := true }
  (if s.st = .running then s.set .interrupting else s).trigger pick

/-- `initialize` (Thread.cpp:350-357). -/
def enter (s : Sys) (t : Wid) : Sys × List Ev :=
  if s.reg s.ident then ({ s with dead := true }, [.crashed])
  else
    let s := ({ s with reg := Function.update s.reg s.ident true } : Sys).set .running
    (({ s with sigC := fun c => if s.cl c = .startS then true else s.sigC c } : Sys).goW t (.at .check), [])

/-- `cleanup` (Thread.cpp:359-372). -/
def cleanup (s : Sys) (t : Wid) : Sys × List Ev :=
  let s := s.set (if s.cancel then .interrupted else .finished)
  let s := { s with cancel := false }
  if s.reg s.ident then
    let s := { s with reg := Function.update s.reg s.ident false, ident := none }
    (({ s with sigC := fun c => if (s.cl c).onCleaned then true else s.sigC c } : Sys).goW t .gone, [.ended t s.st])
  else ({ s with dead := true }, [.crashed])

/-- The condition of the loop (Thread.cpp:332), and the way on. -/
def loopTest (s : Sys) (t : Wid) : Sys × List Ev :=
  if s.cancel = false ∨ s.numCycles = 0 then (s.goW t (.at .proc), [.procBegin t]) else (s.goW t (.at .ending), [])

/-- The lines behind `process()` (Thread.cpp:336-337, Condition.cpp:54-96): wait for the trigger for what is left of the
cycle; `late` if nothing is left. -/
def waitTrigger (s : Sys) (t : Wid) (late : Bool) : Sys × List Ev :=
  let keep := if s.reg (some t) then some s.st else none
  let s' := if s.reg (some t) then s.set .waiting else s
  match s.cycle with
  | .once => (s.goW t (.at .stopped), [.procEnd t])
  | .timed =>
    if late then (s.goW t (.at .stopped), [.procEnd t])
    else (s'.goW t (.trig true keep), [.procEnd t])
  | .eternal => (s'.goW t (.trig false keep), [.procEnd t])

/-- The end of that wait: the former state is set again (Condition.cpp:91-96). -/
def Sys.restore (s : Sys) : Option St → Sys
  | some st => s.set st
  | none => s

/-- The end of the body of the loop, and its condition (Thread.cpp:340-344, 332). -/
def cycleEnd (s : Sys) (t : Wid) : Sys × List Ev :=
  let s := { s with numCycles := s.numCycles + 1 }
  if s.cycle = .once then (s.goW t (.at .ending), []) else loopTest s t

/-- The steps of a schedule. -/
inductive Act where
  | start (c : Cid) (w : W) (id : Wid) (ok : Bool)
  | interrupt (c : Cid) (w : W) (pick : Wid)
  | wait (c : Cid) (w : W)
  | setCycle (cycle : Cycle)
  /-- somebody signals the trigger -/
  | trigger (pick : Wid)
  /-- the caller runs on behind its wait, because of a signal or for no reason -/
  | wakeC (c : Cid) (id : Wid) (ok : Bool)
  | timeoutC (c : Cid)
  /-- the POSIX thread runs on to the next point -/
  | work (t : Wid) (late : Bool)
  | timeoutW (t : Wid)
  /-- it sleeps, or waits for something else than the trigger: in `process()`, or for the mutex of the object
  (Condition.cpp:80-85, Timer.cpp:131-132) -/
  | rest (t : Wid) (sleep : Bool)
  /-- that is over (Condition.cpp:91-96, Timer.cpp:135-136) -/
  | unrest (t : Wid)
  /-- `process()` calls `Thread::exit()` (Thread.cpp:277-284) -/
  | exit (t : Wid) (pick : Wid)

/-- One step.  A caller that is in a function cannot call another one. -/
def step (s : Sys) (a : Act) : Sys × List Ev :=
  if s.dead then (s, []) else
  match a with
  | .start c w id ok =>
    -- Thread.cpp:223-225
    if s.cl c = .idle then
      match w with
      | .no => launch s c id ok
      | .until => if s.busy then (s.goC c (.startW true), []) else launch s c id ok
      | .eternal => if s.busy then (s.goC c (.startW false), []) else launch s c id ok
    else (s, [])
  | .interrupt c w pick =>
    -- Thread.cpp:265-274
    if s.cl c = .idle then
      if s.busy then
        let r := await (s.ask pick) c w
        (r.1, .asked :: r.2)
      else (s, [.ret c false])
    else (s, [])
  | .wait c w => if s.cl c = .idle then await s c w else (s, [])
  | .setCycle cycle => ({ s with cycle := cycle }, [])
  | .trigger pick => (s.trigger pick, [])
  | .wakeC c id ok =>
    match s.cl c with
    | .idle => (s, [])
    | .startW _ => launch s c id ok
    | .startS => (s.goC c .idle, [.ret c true])
    | .waitW _ => (s.goC c .idle, [.ret c true])
  | .timeoutC c =>
    -- a caller that was signalled before its time was over returns from the wait as signalled
    if s.sigC c then (s, []) else
    match s.cl c with
    | .startW true => (s.goC c .idle, [.ret c false])
    | .waitW true => (s.goC c .idle, [.ret c false])
    | _ => (s, [])
  | .work t late =>
    match s.wk t with
    | .gone => (s, [])
    | .fresh => enter s t
    | .at .check => loopTest s t
    | .at .proc => waitTrigger s t late
    | .at .stopped => cycleEnd s t
    | .at .ending => cleanup s t
    | .rest _ _ => (s, [])
    | .trig _ saved => ((s.restore saved).goW t (.at .stopped), [])
  | .timeoutW t =>
    match s.wk t with
    | .trig true saved => ((s.restore saved).goW t (.at .stopped), [])
    | _ => (s, [])
  | .rest t sleep =>
    match s.wk t with
    | .at p =>
      if s.reg (some t) then ((s.set (if sleep then .sleeping else .waiting)).goW t (.rest s.st p), []) else (s, [])
    | _ => (s, [])
  | .unrest t =>
    match s.wk t with
    | .rest saved p => ((s.set saved).goW t (.at p), [])
    | _ => (s, [])
  | .exit t pick =>
    match s.wk t with
    | .at .proc => if s.reg (some t) ∧ s.busy then (s.ask pick, [.asked]) else (s, [])
    | _ => (s, [])

/-- A schedule: the state at its end and all that was seen, in order. -/
def run (s : Sys) : List Act → Sys × List Ev
  | [] => (s, [])
  | a :: as => ((run (step s a).1 as).1, (step s a).2 ++ (run (step s a).1 as).2)

/-! ## Specification -/

/-- The life of an object: off, or in a run of the thread `t` that was interrupted or not, in which `process()` has
returned so many times and is under way or not; or something has happened that must not. -/
inductive Life where
  | off
  | on (t : Wid) (asked : Bool) (calls : ℕ) (inside : Bool)
  | wrong
  deriving DecidableEq, Repr

/-- What may happen.  A run is started only if none is under way; `process()` is called by the thread of the run, one call
at a time, and once the run is interrupted it is not called again, but for the first time; the run ends after one
call at least, and its final state tells whether it was interrupted. -/
def Life.next : Life → Ev → Life
  | .off, .launched t => .on t false 0 false
  | .on t a n false, .procBegin u => if u = t ∧ (a = false ∨ n = 0) then .on t a n true else .wrong
  | .on t a n true, .procEnd u => if u = t then .on t a (n + 1) false else .wrong
  | .on t _ n p, .asked => .on t true n p
  | .on t a n false, .ended u st =>
    if u = t ∧ 1 ≤ n ∧ st = (if a then .interrupted else .finished) then .off else .wrong
  | l, .waits _ => l
  | l, .ret _ _ => l
  | l, .raised _ => l
  | _, _ => .wrong

/-- The life after all that was seen. -/
def life (es : List Ev) : Life := es.foldl Life.next .off

/-- The object is started only when it is not busy, and the system can create the thread. -/
def Orderly (s : Sys) : Act → Prop
  | .start _ _ _ ok => ¬ s.busy ∧ ok = true
  | _ => True

/-- So do all steps of a schedule. -/
def OrderlyRun (s : Sys) : List Act → Prop
  | [] => True
  | a :: as => Orderly s a ∧ OrderlyRun (step s a).1 as

/-- A caller wakes up only if it was signalled. -/
def Honest (s : Sys) : Act → Prop
  | .wakeC c _ _ => s.sigC c = true
  | _ => True

/-- So do all steps of a schedule. -/
def HonestRun (s : Sys) : List Act → Prop
  | [] => True
  | a :: as => Honest s a ∧ HonestRun (step s a).1 as

/-- Nobody starts or interrupts the object or signals its trigger, and threads wake up only if they were signalled. -/
def Quiet (s : Sys) : Act → Prop
  | .start _ _ _ _ => False
  | .interrupt _ _ _ => False
  | .trigger _ => False
  | .wakeC c _ _ => s.sigC c = true
  | .work t _ => (s.wk t).onTrigger = true → s.sigT t = true
  | _ => True

/-- So do all steps of a schedule. -/
def QuietRun (s : Sys) : List Act → Prop
  | [] => True
  | a :: as => Quiet s a ∧ QuietRun (step s a).1 as

/-- A caller that waits for the end of a run: it does not wait, it has seen no end yet, it has seen one; or it was told
that the run is over when it has seen no end. -/
inductive Seen where
  | idle | nothing | an_end | wrong
  deriving DecidableEq, Repr

/-- What it sees. -/
def Seen.next (c : Cid) : Seen → Ev → Seen
  | .wrong, _ => .wrong
  | .idle, .waits d => if d = c then .nothing else .idle
  | .nothing, .ended _ _ => .an_end
  | .nothing, .ret d r => if d = c then (if r then .wrong else .idle) else .nothing
  | .an_end, .ret d _ => if d = c then .idle else .an_end
  | x, _ => x

/-- What a caller has seen. -/
def seen (c : Cid) (es : List Ev) : Seen := es.foldl (Seen.next c) .idle

end Kalibr.Thr
