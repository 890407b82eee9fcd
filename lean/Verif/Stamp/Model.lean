import Verif.Common
import Mathlib.Data.Real.Basic
import Mathlib.Algebra.Order.Archimedean.Real.Basic
import Mathlib.Algebra.Order.Floor.Ring

/-!
# Time stamps and timers of the incremental calibration

A model of `aslam_incremental_calibration/aslam_incremental_calibration/src/base/Timestamp.cpp` (the conversion to
`timespec`) and `Timer.cpp`.  `double` is a real number.  The clock is what `gettimeofday` is said to return by the
arguments.  Not modelled: dates, streams, the state of a registered thread that sleeps, and failures of `nanosleep`.
-/

namespace Kalibr.Stamp

/-- The cast of a `double` to `time_t` or `long`, both of 64 bits: towards zero, and undefined if the result does not
fit. -/
noncomputable def trunc (x : ℝ) : Out ℤ :=
  let z := if 0 ≤ x then ⌊x⌋ else ⌈x⌉
  if -2 ^ 63 ≤ z ∧ z < 2 ^ 63 then .ok z else .ub

/-- `timespec` -/
structure Spec where
  sec : ℤ
  nsec : ℤ
  deriving DecidableEq

/-- `Timestamp::operator timespec` (Timestamp.cpp:107-112). -/
noncomputable def toSpec (x : ℝ) : Out Spec :=
  (trunc x).bind fun s => (trunc ((x - s) * 1000000000)).bind fun n => .ok ⟨s, n⟩

/-- What POSIX takes for a time: `nanosleep` and `pthread_cond_timedwait` fail on other values. -/
def Spec.valid (s : Spec) : Prop := 0 ≤ s.sec ∧ 0 ≤ s.nsec ∧ s.nsec < 1000000000

/-- The seconds it stands for. -/
noncomputable def Spec.seconds (s : Spec) : ℝ := s.sec + s.nsec / 1000000000

/-- `Timer::sleep` (Timer.cpp:120-138): the time it asks `nanosleep` for, if it calls it. -/
noncomputable def sleep (period : ℝ) : Out (Option Spec) :=
  if 0 < period then (toSpec period).bind fun s => .ok (some s) else .ok none

/-- `Timer`: `mStartTime` and `mPeriod`. -/
structure Timer where
  start : ℝ
  period : ℝ

/-- `Timer(false)` (Timer.cpp:35-40). -/
def Timer.new : Timer := ⟨0, 0⟩

/-- `getLeft` (Timer.cpp:92-94). -/
def Timer.left (t : Timer) (period now : ℝ) : ℝ := t.start + period - now

/-- `reset` (Timer.cpp:111-114). -/
def Timer.reset (_ : Timer) : Timer := ⟨0, 0⟩

/-- `start` (Timer.cpp:100-104). -/
def Timer.begin (t : Timer) (reset : Bool) (now : ℝ) : Timer :=
  let t := if reset then t.reset else t
  { t with start := now }

/-- `stop` behind its sleep (Timer.cpp:108). -/
def Timer.add (t : Timer) (now : ℝ) : Timer := { t with period := t.period + (now - t.start) }

/-- `stop` (Timer.cpp:106-109): the time it asks for, and the timer; `now` is the time when it is called, and `later` the time
when it has slept. -/
noncomputable def Timer.stop (t : Timer) (period now later : ℝ) : Out (Option Spec × Timer) :=
  (sleep (t.left period now)).bind fun s => .ok (s, t.add later)

/-- A timer that is started and stopped again and again, at the given times. -/
def Timer.runs (reset : Bool) (t : Timer) : List (ℝ × ℝ) → Timer
  | [] => t
  | (a, b) :: l => ((t.begin reset a).add b).runs reset l

end Kalibr.Stamp
