import Verif.Common
import Verif.Tactics
import Mathlib.Data.Nat.Digits.Defs
import Mathlib.Data.Real.Basic

/-!
# Model of the routines for strings, identifiers, comparisons of numbers and portable archives

Sources: `Schweizer-Messer/sm_common/include/sm_common/string_routines.hpp` (cited as `Str`), `hash_id.hpp` (cited as `Hash`) and
`numerical_comparisons.hpp` (cited as `Num`) in the same folder, `Schweizer-Messer/sm_boost/src/portable_binary_oarchive.cpp` (cited as `OA`) and
`portable_binary_iarchive.cpp` (cited as `IA`).

Simplifications: strings are lists of characters; numbers that are compared are real numbers.
-/

namespace Kalibr.Util

abbrev Str := List Char

/-! ## Strings -/

/-- `str.find(target, pos)`. -/
def findFrom (t : Char) (s : Str) (pos : ℕ) : Option ℕ := ((s.drop pos).findIdx? (· = t)).map (· + pos)

/-- A run of the loop of `replace`, Str 12-26: the string, the position and how many to skip, and what is returned.  There is no run if the loop
does not end. -/
inductive Replace (t r : Char) : Str → ℕ → ℕ → Str → Prop
  | done (s : Str) (pos skip : ℕ) (h : findFrom t s pos = none) : Replace t r s pos skip s
  | skip (s : Str) (pos skip p : ℕ) (out : Str) (h : findFrom t s pos = some p) (hr : Replace t r s (p + 1) skip out) :
      Replace t r s pos (skip + 1) out
  | put (s : Str) (pos p : ℕ) (out : Str) (h : findFrom t s pos = some p) (hr : Replace t r (s.set p r) p 0 out) : Replace t r s pos 0 out

/-- `str.rfind(target, pos)`; nothing is `npos`. -/
def rfindFrom (t : Char) (s : Str) (pos : Option ℕ) : Option ℕ :=
  let l := match pos with
    | none => s
    | some p => s.take (p + 1)
  (l.reverse.findIdx? (· = t)).map fun i => l.length - 1 - i

/-- A run of the loop of `replace_reverse`, Str 30-43.  `pos--` of zero is `npos`. -/
inductive ReplaceReverse (t r : Char) : Str → Option ℕ → ℕ → Str → Prop
  | done (s : Str) (pos : Option ℕ) (skip : ℕ) (h : rfindFrom t s pos = none) : ReplaceReverse t r s pos skip s
  | skip (s : Str) (pos : Option ℕ) (skip p : ℕ) (out : Str) (h : rfindFrom t s pos = some p)
      (hr : ReplaceReverse t r s (if p = 0 then none else some (p - 1)) skip out) : ReplaceReverse t r s pos (skip + 1) out
  | put (s : Str) (pos : Option ℕ) (p : ℕ) (out : Str) (h : rfindFrom t s pos = some p)
      (hr : ReplaceReverse t r (s.set p r) (some p) 0 out) : ReplaceReverse t r s pos 0 out

/-- `leading_pad`, Str 46-59. -/
def leadingPad (s : Str) (n : ℕ) (c : Char) : Str := if s.length < n then List.replicate (n - s.length) c ++ s else s

/-- `s.find("$(", 0)`. -/
def findOpen : Str → Option ℕ
  | [] => none
  | c :: s => if c = '$' ∧ s.head? = some '(' then some 0 else (findOpen s).map (· + 1)

theorem findOpen_lt {s : Str} {i : ℕ} (h : findOpen s = some i) : i < s.length := by
  induction s generalizing i with
  | nil => simp [findOpen] at h
  | cons c s ih =>
    unfold findOpen at h
    split_ifs at h
    · cases h; simp
    · cases hf : findOpen s with
      | none => simp [hf] at h
      | some j =>
        simp [hf] at h
        have := ih hf
        simp; omega

/-- The loop of `substituteEnvVars`, Str 70-100: what was written, the end of what was replaced last, and where to search. -/
def substLoop (env : Str → Option Str) (s out : Str) (pidx off : ℕ) : Str :=
  match h : findOpen (s.drop off) with
  | none => out ++ s.drop pidx
  | some i =>
    match (s.drop (off + i)).findIdx? (· = ')') with
    | none => out ++ s.drop pidx
    | some j =>
      match env ((s.drop (off + i + 2)).take (j - 2)) with
      | some v => substLoop env s (out ++ (s.drop pidx).take (off + i - pidx) ++ v) (off + i + j + 1) (off + i + j + 1)
      | none => substLoop env s out pidx (off + i + j + 1)
termination_by s.length - off
decreasing_by
  all_goals
    have := findOpen_lt h
    rw [List.length_drop] at this
    omega

/-- `substituteEnvVars`, Str 69-100. -/
def substituteEnvVars (env : Str → Option Str) (s : Str) : Str := substLoop env s [] 0 0

/-- `toStream`, Str 228-243. -/
def toStream (items : List Str) (delimiter pre post : Str) : Str :=
  pre ++ (match items with
    | [] => []
    | i :: l => i ++ (l.map fun x => delimiter ++ x).flatten) ++ post

/-! ## Identifiers -/

/-- A hexadecimal digit. -/
def hexDigit (n : ℕ) : Char := ("0123456789abcdef".toList).getD n '0'

/-- The value of a hexadecimal digit. -/
def hexVal (c : Char) : Option ℕ :=
  if '0' ≤ c ∧ c ≤ '9' then some (c.toNat - 48)
  else if 'a' ≤ c ∧ c ≤ 'f' then some (c.toNat - 87)
  else if 'A' ≤ c ∧ c ≤ 'F' then some (c.toNat - 55)
  else none

/-- `hexString`, Hash 44-51, of the bytes. -/
def hexString (v : List ℕ) : Str := (v.map fun b => [hexDigit (b / 16), hexDigit (b % 16)]).flatten

/-- Two characters read as a hexadecimal number of type `unsigned int` and cut to a byte: spaces are skipped, a sign is read, and zero is given if nothing can be read. -/
def readByte (c d : Char) : ℕ :=
  match hexVal c with
  | some a => match hexVal d with
    | some b => 16 * a + b
    | none => a
  | none =>
    if c = '+' ∨ c.isWhitespace then (hexVal d).getD 0
    else if c = '-' then (256 - (hexVal d).getD 0) % 256
    else 0

/-- The bytes of pairs of characters. -/
def readBytes : Str → List ℕ
  | c :: d :: s => readByte c d :: readBytes s
  | _ => []

/-- `fromHexString`, Hash 57-69: what is returned, and the bytes after it. -/
def fromHexString (old : List ℕ) (s : Str) : Bool × List ℕ := if s.length ≠ 2 * 16 then (false, old) else (true, readBytes s)

/-- The two numbers the comparisons use (the union `HashVal`, Hash 131-134, on a machine that stores the low byte first). -/
def u64 (v : List ℕ) (i : ℕ) : ℕ := Nat.ofDigits 256 ((v.drop (8 * i)).take 8)

/-- `operator<`, Hash 85-90. -/
def hashLt (a b : List ℕ) : Bool := if u64 a 0 = u64 b 0 then decide (u64 a 1 < u64 b 1) else decide (u64 a 0 < u64 b 0)

/-- `operator>`, Hash 91-96. -/
def hashGt (a b : List ℕ) : Bool := if u64 a 0 = u64 b 0 then decide (u64 a 1 > u64 b 1) else decide (u64 a 0 > u64 b 0)

/-- `operator==`, Hash 97-99. -/
def hashEq (a b : List ℕ) : Bool := decide (u64 a 0 = u64 b 0 ∧ u64 a 1 = u64 b 1)

/-- `isValid`, Hash 110-112. -/
def hashValid (a : List ℕ) : Bool := decide (u64 a 0 ≠ 0 ∨ u64 a 1 ≠ 0)

/-- `setInvalid`, Hash 107-109. -/
def hashInvalid : List ℕ := List.replicate 16 0

/-- The identifiers: sixteen bytes. -/
structure IsHash (a : List ℕ) : Prop where
  length : a.length = 16
  byte : ∀ b ∈ a, b < 256

/-! ## Comparisons -/

/-- `maxTimesEpsilon`, Num 44-49. -/
noncomputable def maxTimesEpsilon (a b e : ℝ) : ℝ := max |a| |b| * e

open Classical in
/-- `approximatelyEqual`, Num 60-65. -/
noncomputable def approximatelyEqual (a b e : ℝ) : Out Bool := if e > 0 then .ok (decide (|a - b| ≤ maxTimesEpsilon a b e)) else .raise

open Classical in
/-- `definitelyGreaterThan`, Num 74-79. -/
noncomputable def definitelyGreaterThan (a b e : ℝ) : Out Bool := if e > 0 then .ok (decide (a - b > maxTimesEpsilon a b e)) else .raise

open Classical in
/-- `definitelyLessThan`, Num 88-93. -/
noncomputable def definitelyLessThan (a b e : ℝ) : Out Bool := if e > 0 then .ok (decide (b - a > maxTimesEpsilon a b e)) else .raise

/-! ## Portable archives -/

/-- The bytes of a number, the low one first. -/
def leBytes (m : ℕ) : ℕ → List ℕ
  | 0 => []
  | k + 1 => m % 256 :: leBytes (m / 256) k

/-- The bytes of a number of 64 bits in memory. -/
def memory (big : Bool) (m : ℕ) : List ℕ := if big then (leBytes m 8).reverse else leBytes m 8

/-- The number in memory. -/
def ofMemory (big : Bool) (l : List ℕ) : ℕ := Nat.ofDigits 256 (if big then l.reverse else l)

/-- `#ifdef BOOST_ENDIAN_BIG_BYTE`: `boost/predef/other/endian.h` defines the macro on every machine, as zero if it does not apply. -/
def macroDefined : Bool := true

/-- How many bytes a number needs, OA 38-41: `do { ll >>= CHAR_BIT; ++size; } while(ll != 0)`. -/
def byteCount (m : ℕ) : ℕ := if m / 256 = 0 then 1 else byteCount (m / 256) + 1
decreasing_by omega

/-- Are the bytes turned around?  `m_flags & endian_little` on one branch, `m_flags & endian_big` on the other. -/
def turned (flagBig flagLittle : Bool) : Bool := if macroDefined then flagLittle else flagBig

/-- `save_impl`, OA 19-61: the size with the sign, and the bytes; the lowest number has no opposite. -/
def saveImpl (big flagBig flagLittle : Bool) (l : ℤ) : Out (ℤ × List ℕ) :=
  if l = 0 then .ok (0, [])
  else if l = -2 ^ 63 then .ub
  else
    let m := l.natAbs
    let size := byteCount m
    let part := if macroDefined then ((memory big m).drop (8 - size)).take size else (memory big m).take size
    .ok (if l < 0 then -size else size, if turned flagBig flagLittle then part.reverse else part)

/-- `load_impl`, IA 22-56; `maxsize` is the size of the type. -/
def loadImpl (big flagBig flagLittle : Bool) (maxsize : ℕ) (a : ℤ × List ℕ) : Out ℤ :=
  if a.1 = 0 then .ok 0
  else
    let size := a.1.natAbs
    if size > maxsize then .raise
    else
      let part := if turned flagBig flagLittle then a.2.reverse else a.2
      let mem := if macroDefined then List.replicate (8 - size) 0 ++ part else part ++ List.replicate (8 - size) 0
      .ok (if a.1 < 0 then -(ofMemory big mem : ℤ) else ofMemory big mem)

/-- A type of integers: the number of bytes, and whether there is a sign. -/
structure IntType where
  bytes : ℕ
  signed : Bool

/-- The value is one of the type. -/
def IntType.Has (t : IntType) (v : ℤ) : Prop := if t.signed then -2 ^ (8 * t.bytes - 1) ≤ v ∧ v < 2 ^ (8 * t.bytes - 1) else 0 ≤ v ∧ v < 2 ^ (8 * t.bytes)

/-- The conversion to a number of 64 bits with a sign. -/
def toMax (v : ℤ) : ℤ := v.bmod (2 ^ 64)

/-- The conversion to the type. -/
def fromMax (t : IntType) (l : ℤ) : ℤ := if t.signed then l.bmod (2 ^ (8 * t.bytes)) else l % 2 ^ (8 * t.bytes)

/-- `save`, `portable_binary_oarchive.hpp` 105-108. -/
def saveInt (big flagBig flagLittle : Bool) (v : ℤ) : Out (ℤ × List ℕ) := saveImpl big flagBig flagLittle (toMax v)

/-- `load`, `portable_binary_iarchive.hpp` 119-126. -/
def loadInt (big flagBig flagLittle : Bool) (t : IntType) (a : ℤ × List ℕ) : Out ℤ :=
  (loadImpl big flagBig flagLittle t.bytes a).bind fun l => .ok (fromMax t l)

/-! ## Specification -/

/-- The string with all but the first `skip` occurrences of a character replaced. -/
def replaced (t r : Char) : ℕ → Str → Str
  | _, [] => []
  | 0, c :: s => (if c = t then r else c) :: replaced t r 0 s
  | k + 1, c :: s => if c = t then c :: replaced t r k s else c :: replaced t r (k + 1) s

/-- Replacing of variables in a text: the first `$(`, the name up to the next `)`, and so on in what follows; variables that do not exist stay. -/
inductive Subst (env : Str → Option Str) : Str → Str → Prop
  | plain (s : Str) (h : ¬ ∃ a n b, s = a ++ ['$', '('] ++ n ++ [')'] ++ b) : Subst env s s
  | var (a n b b' : Str) (ha : ¬ ['$', '('] <:+: a ++ ['$']) (hn : ')' ∉ n) (h : Subst env b b') :
      Subst env (a ++ ['$', '('] ++ n ++ [')'] ++ b) (a ++ ((env n).getD (['$', '('] ++ n ++ [')'])) ++ b')

end Kalibr.Util
