import Verif.Common

/-!
# The switches of the logging statements

Models `Schweizer-Messer/sm_logging/src/LoggingGlobals.cpp` and the location macro of
`include/sm_logging/logging/console.hpp`: every logging statement owns a location that caches
whether it prints; threads change the level, the enabled streams and the locations under two
mutexes.  Every thread runs the code one access at a time; the memory is sequentially consistent.
-/

namespace Kalibr.LogFlag

/-- `LogLocation` (include/sm_logging/logging/LogLocation.hpp:6-15). -/
structure Loc where
  /-- `_initialized` -/
  init : Bool
  /-- `_loggerEnabled` -/
  flag : Bool
  /-- `_level`; the enumerators of `levels::Level` are numbered from 0 (`All`) to 11 (`Count`) -/
  level : Nat
  /-- `_streamName` -/
  name : String

/-- `LogLocation()` (LogLocation.hpp:8-9). -/
def Loc.fresh : Loc := ⟨false, false, 11, ""⟩

/-- The place in the code where a thread stands. -/
inductive Pc where
  /-- outside of the logging system -/
  | idle
  /-- in `setLevel(x)`, before the comparison (LoggingGlobals.cpp:239-242) -/
  | lvl (x : Nat)
  /-- in `setLevel(x)`, before the assignment (LoggingGlobals.cpp:244) -/
  | lvlW (x : Nat)
  /-- in `enableNamedStream(n)` (`on`) or `disableNamedStream(n)`, before the lock of
  `_named_stream_mutex` (LoggingGlobals.cpp:107-108, 113-114) -/
  | str (on : Bool) (n : String)
  /-- in the same functions, holding `_named_stream_mutex`, before the change of the set
  (LoggingGlobals.cpp:109, 115-118) -/
  | strW (on : Bool) (n : String)
  /-- at the lock of `_locations_mutex` in `notifyLoggerLevelsChanged`
  (LoggingGlobals.cpp:88); `n`: the thread holds `_named_stream_mutex` -/
  | waitL (n : Bool)
  /-- in `initializeLogLocation(loc i, name, level)`, before the lock (LoggingGlobals.cpp:46-47) -/
  | ini (i : Nat) (name : String) (level : Nat)
  /-- in `setLogLocationLevel(loc i, level)`, before the lock (LoggingGlobals.cpp:64-66), called
  from the macro, which goes on with `checkLogLocationEnabled` (console.hpp:73-77) -/
  | rel (i : Nat) (level : Nat)
  /-- in `checkLogLocationEnabled(loc i)`, before the lock (LoggingGlobals.cpp:70-72) -/
  | recheck (i : Nat)
  /-- holding `_locations_mutex`, with the locations `todo` still to be checked; `fin` is the
  location to be marked as initialized at the end -/
  | loop (n : Bool) (todo : List Nat) (fin : Option Nat)
  /-- in `checkLogLocationEnabledNoLock(loc i)`, after the comparison of the levels, which gave
  `b` (LoggingGlobals.cpp:43) -/
  | chk (n : Bool) (i : Nat) (b : Bool) (todo : List Nat) (fin : Option Nat)

/-- `LoggingGlobals` (include/sm_logging/logging/LoggingGlobals.hpp:85-104), the locations of the
program and the threads. -/
structure St where
  /-- `_level` -/
  level : Nat
  /-- `_namedStreamsEnabled`, as its membership test -/
  streams : String → Bool
  /-- the locations; `i` stands for a pointer -/
  locs : Nat → Loc
  /-- `_log_locations` -/
  reg : List Nat
  /-- the thread that holds `_locations_mutex` -/
  lockL : Option Nat
  /-- the thread that holds `_named_stream_mutex` (recursive) -/
  lockN : Option Nat
  pc : Nat → Pc

/-- `LoggingGlobals()` (LoggingGlobals.cpp:11-18): level `Info`, the default stream enabled. -/
def start (default : String) : St :=
  ⟨7, fun n => n == default, fun _ => Loc.fresh, [], none, none, fun _ => .idle⟩

/-- Pointwise update. -/
def upd {α : Type} (f : Nat → α) (i : Nat) (a : α) : Nat → α := fun j => if j = i then a else f j

/-- The update of the set of streams: `insert` and `erase` (LoggingGlobals.cpp:109, 118). -/
def updS (f : String → Bool) (n : String) (a : Bool) : String → Bool :=
  fun m => if m = n then a else f m

/-- The calls a thread outside of the logging system can make. -/
inductive Op where
  | setLevel (x : Nat)
  | stream (on : Bool) (n : String)
  | init (i : Nat) (name : String) (level : Nat)
  | relevel (i : Nat) (level : Nat)

/-- Entry of the calls.  The macro calls `setLogLocationLevel` only on a location that is
initialized (console.hpp:69-77). -/
def call (s : St) (t : Nat) : Op → St
  | .setLevel x => { s with pc := upd s.pc t (.lvl x) }
  | .stream on n => { s with pc := upd s.pc t (.str on n) }
  | .init i name level => { s with pc := upd s.pc t (.ini i name level) }
  | .relevel i level =>
      if (s.locs i).init then { s with pc := upd s.pc t (.rel i level) } else s

/-- The end of `initializeLogLocation` (LoggingGlobals.cpp:61). -/
def finish (locs : Nat → Loc) : Option Nat → Nat → Loc
  | none => locs
  | some i => upd locs i { locs i with init := true }

/-- One step of thread `t`; `none` while it is blocked on a mutex or outside. -/
def step (s : St) (t : Nat) : Option St :=
  match s.pc t with
  | .idle => none
  -- LoggingGlobals.cpp:242
  | .lvl x => if x = s.level then some { s with pc := upd s.pc t .idle }
              else some { s with pc := upd s.pc t (.lvlW x) }
  -- LoggingGlobals.cpp:244-245
  | .lvlW x => some { s with level := x, pc := upd s.pc t (.waitL false) }
  -- LoggingGlobals.cpp:108, 114
  | .str on n => if s.lockN = none
      then some { s with lockN := some t, pc := upd s.pc t (.strW on n) } else none
  -- LoggingGlobals.cpp:109-110, 115-120
  | .strW on n =>
      if on = false ∧ s.streams n = false
      then some { s with lockN := none, pc := upd s.pc t .idle }
      else some { s with streams := updS s.streams n on, pc := upd s.pc t (.waitL true) }
  -- LoggingGlobals.cpp:88-91
  | .waitL n => if s.lockL = none
      then some { s with lockL := some t, pc := upd s.pc t (.loop n s.reg none) } else none
  -- LoggingGlobals.cpp:47-57
  | .ini i name level => if s.lockL = none
      then
        if (s.locs i).init then some { s with pc := upd s.pc t .idle }
        else some { s with
          locs := upd s.locs i { s.locs i with name := name, level := level }
          reg := s.reg ++ [i]
          lockL := some t
          pc := upd s.pc t (.loop false [i] (some i)) }
      else none
  -- LoggingGlobals.cpp:66-68
  | .rel i level => if s.lockL = none
      then some { s with
        locs := upd s.locs i { s.locs i with level := level }
        pc := upd s.pc t (.recheck i) }
      else none
  -- LoggingGlobals.cpp:72
  | .recheck i => if s.lockL = none
      then some { s with lockL := some t, pc := upd s.pc t (.loop false [i] none) } else none
  -- LoggingGlobals.cpp:92-95, and the left operand of the conjunction at 43
  | .loop n (i :: todo) fin =>
      some { s with pc := upd s.pc t (.chk n i (decide (s.level ≤ (s.locs i).level)) todo fin) }
  -- LoggingGlobals.cpp:61-62, 97, 111, 121: both mutexes are released
  | .loop n [] fin => some { s with
        locs := finish s.locs fin
        lockL := none
        lockN := if n then none else s.lockN
        pc := upd s.pc t .idle }
  -- LoggingGlobals.cpp:43, 100-105: `isNamedStreamEnabled` takes the recursive mutex
  | .chk n i b todo fin =>
      if b = true ∧ (s.locs i).name ≠ "" then
        if s.lockN = none ∨ s.lockN = some t then
          some { s with
            locs := upd s.locs i { s.locs i with flag := s.streams (s.locs i).name }
            pc := upd s.pc t (.loop n todo fin) }
        else none
      else some { s with
        locs := upd s.locs i { s.locs i with flag := b }
        pc := upd s.pc t (.loop n todo fin) }

/-- The states the program can reach: any number of threads, any calls, any schedule. -/
inductive Reach (default : String) : St → Prop
  | start : Reach default (start default)
  | call {s : St} (t : Nat) (op : Op) : Reach default s → s.pc t = .idle →
      Reach default (call s t op)
  | step {s s' : St} (t : Nat) : Reach default s → step s t = some s' → Reach default s'

end Kalibr.LogFlag
