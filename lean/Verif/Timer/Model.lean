import Verif.Common
import Verif.Tactics
import Mathlib.Algebra.Order.Field.Rat

/-!
# Model of the timer registry (`sm::timing::Timing`, `Timer`)

Source: `/repo/Schweizer-Messer/sm_timing/src/Timer.cpp`.

A clock reading is a rational number supplied with the call.  The accumulator of a timer is the list
of samples added to it; the statistics extracted from it (sum, mean, variance, min, max, rolling
mean: Boost.Accumulators) are not modelled apart from the count.  `std::map` is an association list
in insertion order: `getTag` scans it for a handle, and since handles are unique the order does not
matter.  Using a timer object that does not exist (any more) is undefined behaviour.
-/

namespace Kalibr.Timer

/-- A `Timer` object: `m_timing`, `m_handle`, `m_time`. -/
structure Obj where
  timing : Bool
  handle : Nat
  time : ℚ

/-- The registry (`m_tagMap`, `m_timers`) and the timer objects alive. -/
structure State where
  tagMap : List (String × Nat)
  timers : List (List ℚ)
  objs : List (Option Obj)

def State.init : State := ⟨[], [], []⟩

/-- `m_tagMap.find(tag)`. -/
def lookup (m : List (String × Nat)) (tag : String) : Option Nat :=
  (m.find? fun e => e.1 == tag).map (·.2)

/-- `Timing::getHandle` (29-43). -/
def getHandle (s : State) (tag : String) : State × Nat :=
  match lookup s.tagMap tag with
  | none => ({ s with tagMap := s.tagMap ++ [(tag, s.timers.length)], timers := s.timers ++ [[]] },
      s.timers.length)
  | some h => (s, h)

/-- `Timing::getTag` (46-62). -/
def getTag (s : State) (handle : Nat) : Out String :=
  match s.tagMap.find? fun e => e.2 == handle with
  | none => .raise
  | some e => .ok e.1

/-- Operations of the interface; `now` is the clock reading the call makes. -/
inductive Op where
  | handle (tag : String)
  | newTag (tag : String) (stopped : Bool) (now : ℚ)
  | newHandle (h : Nat) (stopped : Bool) (now : ℚ)
  | start (id : Nat) (now : ℚ)
  | stop (id : Nat) (now : ℚ)
  | destroy (id : Nat) (now : ℚ)
  | numSamples (h : Nat)
  | numSamplesTag (tag : String)
  | reset (h : Nat)
  | resetTag (tag : String)

/-- `Timer::start` (89-97) on an object. -/
def startObj (o : Obj) (now : ℚ) : Out Obj :=
  if o.timing then .raise else .ok { o with timing := true, time := now }

/-- `Timing::addTime` (122-124): `m_timers[handle]` unchecked. -/
def addTime (s : State) (h : Nat) (dt : ℚ) : Out State :=
  match s.timers[h]? with
  | none => .ub
  | some l => .ok { s with timers := s.timers.set h (l ++ [dt]) }

/-- `Timer::stop` (99-114). -/
def stopObj (s : State) (id : Nat) (o : Obj) (now : ℚ) : Out State :=
  if o.timing then do
    let s ← addTime s o.handle (now - o.time)
    return { s with objs := s.objs.set id (some { o with timing := false }) }
  else .raise

/-- Constructors (66-82): a new object, started unless constructed stopped. -/
def construct (s : State) (h : Nat) (stopped : Bool) (now : ℚ) : Out Nat × State :=
  (.ok s.objs.length, { s with objs := s.objs ++ [some ⟨!stopped, h, now⟩] })

/-- `getNumSamples(handle)` (140-143). -/
def getNumSamples (s : State) (h : Nat) : Out Nat :=
  match s.timers[h]? with
  | none => .raise
  | some l => .ok l.length

/-- `reset(handle)` (180-183). -/
def reset (s : State) (h : Nat) : Out Nat × State :=
  match s.timers[h]? with
  | none => (.raise, s)
  | some _ => (.ok 0, { s with timers := s.timers.set h [] })

/-- One call: its outcome (a handle, object number or count) and the state left behind. -/
def step (s : State) : Op → Out Nat × State
  | .handle tag => let r := getHandle s tag; (.ok r.2, r.1)
  | .newTag tag stopped now => let r := getHandle s tag; construct r.1 r.2 stopped now
  | .newHandle h stopped now =>
      if h < s.timers.length then construct s h stopped now else (.raise, s)
  | .start id now =>
    match s.objs[id]? with
    | some (some o) =>
      match startObj o now with
      | .ok o' => (.ok 0, { s with objs := s.objs.set id (some o') })
      | .raise => (.raise, s)
      | .ub => (.ub, s)
    | _ => (.ub, s)
  | .stop id now =>
    match s.objs[id]? with
    | some (some o) =>
      match stopObj s id o now with
      | .ok s' => (.ok 0, s')
      | .raise => (.raise, s)
      | .ub => (.ub, s)
    | _ => (.ub, s)
  | .destroy id now =>   -- 84-87
    match s.objs[id]? with
    | some (some o) =>
      if o.timing then
        match stopObj s id o now with
        | .ok s' => (.ok 0, { s' with objs := s'.objs.set id none })
        | .raise => (.raise, s)
        | .ub => (.ub, s)
      else (.ok 0, { s with objs := s.objs.set id none })
    | _ => (.ub, s)
  | .numSamples h => (getNumSamples s h, s)
  | .numSamplesTag tag => let r := getHandle s tag; (getNumSamples r.1 r.2, r.1)
  | .reset h => reset s h
  | .resetTag tag => let r := getHandle s tag; reset r.1 r.2

/-- Outcomes and final state of a history. -/
def runFrom (s : State) : List Op → List (Out Nat) × State
  | [] => ([], s)
  | op :: ops =>
    let r := step s op
    let t := runFrom r.2 ops
    (r.1 :: t.1, t.2)

def run : List Op → List (Out Nat) × State := runFrom State.init

end Kalibr.Timer
