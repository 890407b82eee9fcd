import Verif.Common

/-!
# Formatting and printing of log messages

Models `vformatToBuffer` and `print` of `Schweizer-Messer/sm_logging/src/LoggingGlobals.cpp`, and
`src/Formatter.cpp` with `include/sm_logging/logging/Tokens.hpp`.
-/

namespace Kalibr.LogPrint

/-! ## The buffer of the message -/

/-- The characters up to the first terminator: what a `const char *` stands for. -/
def cstr (b : List Char) : List Char := b.takeWhile (· ≠ '\x00')

/-- What the conversions of one call produce: the whole text, or an error after a part of it. -/
inductive Conv where
  | text (t : List Char)
  | fail (part : List Char)

def Conv.chars : Conv → List Char
  | .text t => t
  | .fail p => p

/-- The values of `size_t`. -/
def two64 : Nat := 18446744073709551616

/-- The value returned by `vsnprintf`, converted to `size_t`: the length of the whole text, or -1. -/
def Conv.total : Conv → Nat
  | .text t => t.length
  | .fail _ => two64 - 1

/-- `vsnprintf(&buf[0], buf.size(), fmt, args)`: at most `size - 1` characters and a terminator are
written, the rest of the buffer stays. -/
def vsnprintf (buf : List Char) (c : Conv) : List Char :=
  match buf with
  | [] => []
  | _ :: _ =>
    let w := c.chars.take (buf.length - 1) ++ ['\x00']
    w ++ buf.drop w.length

/-- `std::vector<char>::resize`. -/
def resize (buf : List Char) (n : Nat) : List Char :=
  buf.take n ++ List.replicate (n - buf.length) '\x00'

/-- `LoggingGlobals::vformatToBuffer` (src/LoggingGlobals.cpp:126-152). -/
def vformatToBuffer (buf : List Char) (c : Conv) : List Char :=
  let b1 := vsnprintf buf c
  if c.total ≥ b1.length then
    vsnprintf (resize b1 ((c.total + 2) % two64)) c
  else b1

/-- The buffer of the constructor (src/LoggingGlobals.cpp:17). -/
def buffer0 : List Char := resize [] 4096

/-- The buffer after a history of messages. -/
def history : List Char → List Conv → List Char
  | b, [] => b
  | b, c :: cs => history (vformatToBuffer b c) cs

/-! ## The formatter -/

/-- The character class `[a-z|A-Z]` of the regular expression (src/Formatter.cpp:51). -/
def isName (c : Char) : Bool :=
  ('a' ≤ c && c ≤ 'z') || c == '|' || ('A' ≤ c && c ≤ 'Z')

/-- A match of `\$\{([a-z|A-Z]+)\}` at the start of the text: the name and the rest. -/
def matchHere : List Char → Option (List Char × List Char)
  | '$' :: '{' :: cs =>
      match cs.takeWhile isName, cs.dropWhile isName with
      | [], _ => none
      | n :: ns, '}' :: r => some (n :: ns, r)
      | _, _ => none
  | _ => none

/-- `boost::regex_search` (src/Formatter.cpp:58): the leftmost match; prefix, name and suffix. -/
def search : List Char → Option (List Char × List Char × List Char)
  | [] => none
  | c :: cs =>
      match matchHere (c :: cs) with
      | some (n, r) => some ([], n, r)
      | none =>
          match search cs with
          | some (p, n, r) => some (c :: p, n, r)
          | none => none

/-- `Token` (Tokens.hpp:27-76): fixed text or a field. -/
inductive Token where
  | fixed (s : List Char)
  | field (n : List Char)
  deriving DecidableEq

/-- `Formatter::init` (src/Formatter.cpp:47-84).  The fuel is the length of the format. -/
def tokensN : Nat → List Char → List Token
  | 0, f => [.fixed f]
  | k + 1, f =>
      match search f with
      | none => [.fixed f]
      | some (p, n, r) => .fixed p :: .field n :: tokensN k r

def tokens (f : List Char) : List Token := tokensN f.length f

/-- `LoggingEvent` (include/sm_logging/logging/LoggingEvent.hpp); the line as its decimal text; the
thread is the one that prints. -/
structure Event where
  level : Nat
  streamName : String
  file : String
  line : String
  function : String
  message : String
  time : String
  thread : String

/-- `SeverityToken::getString` (Tokens.hpp:94-142). -/
def severity (l : Nat) : String :=
  if l = 10 then "FATAL"
  else if l = 9 then "ERROR"
  else if l = 8 then " WARN"
  else if l = 7 then " INFO"
  else if l = 6 then "DEBUG"
  else if l = 5 then " FINE"
  else if l = 4 then "TRACE"
  else if l = 3 then "FINER"
  else if l = 2 then "VERBO"
  else if l = 1 then "FINES"
  else if l = 0 then "  ALL"
  else "UNKNO"

/-- `createTokenFromType` and the `getString` of the token (src/Formatter.cpp:8-44,
Tokens.hpp:54-232); `extra` is the map of the extra fixed tokens. -/
def fieldText (extra : List Char → Option (List Char)) (e : Event) (n : List Char) : List Char :=
  if n = "severity".toList then (severity e.level).toList
  else if n = "message".toList then e.message.toList
  else if n = "time".toList then e.time.toList
  else if n = "thread".toList then e.thread.toList
  else if n = "file".toList then e.file.toList
  else if n = "line".toList then e.line.toList
  else if n = "function".toList then e.function.toList
  else if n = "streamname".toList then e.streamName.toList
  else match extra n with
    | none => cstr (('$' :: '{' :: n) ++ ['}'])
    | some v => cstr v

/-- `getString` of a token (Tokens.hpp:46-49). -/
def Token.text (extra : List Char → Option (List Char)) (e : Event) : Token → List Char
  | .fixed s => cstr s
  | .field n => fieldText extra e n

/-- The colour of a level (src/Formatter.cpp:88-136, Tokens.hpp:16-22). -/
def colour (l : Nat) : List Char :=
  if l = 10 then "\x1b[91m".toList
  else if l = 9 then "\x1b[31m".toList
  else if l = 8 then "\x1b[33m".toList
  else if l = 7 then "\x1b[0m".toList
  else if l = 6 then "\x1b[32m".toList
  else if l ≤ 5 then "\x1b[92m".toList
  else "\x1b[0m".toList

/-- `Formatter::print` (src/Formatter.cpp:86-154). -/
def print (doColor : Bool) (extra : List Char → Option (List Char)) (fmt : List Char) (e : Event) :
    List Char :=
  (if doColor then colour e.level else []) ++
  (tokens fmt).flatMap (Token.text extra e) ++
  (if doColor then "\x1b[0m".toList else []) ++ ['\n']

/-! ## The threads in `print` -/

/-- Where a thread stands in `LoggingGlobals::print` (src/LoggingGlobals.cpp:165-230). -/
inductive Pc where
  | out
  /-- at the lock of `_print_mutex` -/
  | want (m : Nat)
  /-- in `_logger->log` -/
  | inside (m : Nat)
  /-- in `_logger->log`, in a second `print`, at the lock of the mutex it holds -/
  | selfWait (m : Nat)

/-- The state: `_shutting_down`, `_print_mutex`, `_printing_thread_id`, and what the logger got. -/
structure St where
  down : Bool
  lock : Option Nat
  printing : Option Nat
  pc : Nat → Pc
  log : List (Nat × Nat)

/-- The start. -/
def St.start : St := ⟨false, none, none, fun _ => .out, []⟩

/-- How a call of the logger ends. -/
inductive End where
  | fine
  /-- with a `std::exception`, which is caught (src/LoggingGlobals.cpp:191-194) -/
  | caught
  /-- with anything else, which leaves `print` and releases the mutex on the way -/
  | alien
  deriving DecidableEq

inductive Ev where
  /-- thread `t` calls `print` with message `m`, from anywhere -/
  | call (t m : Nat)
  /-- thread `t` gets the mutex -/
  | enter (t : Nat)
  /-- the logger comes back to thread `t` -/
  | done (t : Nat) (r : End)
  /-- `shutdown` (src/LoggingGlobals.cpp:25-28) -/
  | shutdown

def upd {α : Type} (f : Nat → α) (i : Nat) (a : α) : Nat → α := fun j => if j = i then a else f j

/-- One event; `none` if it cannot happen. -/
def step (s : St) : Ev → Option St
  -- src/LoggingGlobals.cpp:167-176, 203-217
  | .call t m =>
      match s.pc t with
      | .out => if s.down then some s
          else if s.printing = some t then some s
          else some { s with pc := upd s.pc t (.want m) }
      | .inside k => if s.down then some s
          else if s.printing = some t then some s
          else some { s with pc := upd s.pc t (.selfWait k) }
      | _ => none
  -- src/LoggingGlobals.cpp:176-178, 217-219
  | .enter t =>
      match s.pc t, s.lock with
      | .want m, none =>
          some { s with lock := some t, printing := some t, pc := upd s.pc t (.inside m) }
      | _, _ => none
  -- src/LoggingGlobals.cpp:187-198, 220-230
  | .done t r =>
      match s.pc t with
      | .inside m =>
          some { s with
            log := if r = .fine then s.log ++ [(t, m)] else s.log
            printing := if r = .alien then s.printing else none
            lock := none
            pc := upd s.pc t .out }
      | _ => none
  | .shutdown => some { s with down := true }

/-- The state after a trace. -/
def run (s : St) : List Ev → Option St
  | [] => some s
  | e :: r => match step s e with
    | some s' => run s' r
    | none => none

end Kalibr.LogPrint
