import Verif.Common
import Verif.FMap
import Verif.Archive.Model

/-!
# Model of `sm::MatrixArchive`

Source: `/repo/Schweizer-Messer/sm_matrix_archive/src/MatrixArchive.cpp` and
`include/sm_matrix_archive/MatrixArchive.hpp` (marked `hpp`).

A byte is a natural number; names, strings and files are lists of bytes.  A double is its 64-bit
pattern.  The machine is little-endian (the other branch throws "Not Implemented", 230-233).  The maps
are iterated in storage order (the code: sorted by name).  Streams never fail on writing; opening a
file always succeeds.  Reading beyond the end of a file leaves the destination indeterminate and the
code uses it without checking: `ub`.
-/

namespace Kalibr.MatArchive

abbrev Name := List Nat

/-- An `Eigen::MatrixXd`: shape and entries, column by column. -/
structure Mat where
  rows : Nat
  cols : Nat
  data : List Nat
  deriving DecidableEq, Repr

/-- `m_values`, `m_strings`. -/
structure Store where
  values : FMap Name Mat
  strings : FMap Name (List Nat)

def Store.empty : Store := ⟨[], []⟩

/-- `isalpha` in the "C" locale. -/
def isAlpha (c : Nat) : Bool := (65 ≤ c && c ≤ 90) || (97 ≤ c && c ≤ 122)

/-- `isalnum` in the "C" locale. -/
def isAlnum (c : Nat) : Bool := isAlpha c || (48 ≤ c && c ≤ 57)

/-- `validateName` (145-158): true when it does not throw. -/
def validName : Name → Bool
  | [] => false
  | c :: cs => if (c :: cs).length > 32 then false
    else isAlpha c && cs.all fun d => isAlnum d || d == 95

/-- `clear()` (25-29). -/
def clear (_ : Store) : Store := ⟨[], []⟩

/-- `clear(entryName)` (32-36): erases twice from `m_values`. -/
def clearName (s : Store) (n : Name) : Store :=
  { s with values := (s.values.erase n).erase n }

/-- `setScalar` (38-44). -/
def setScalar (s : Store) (n : Name) (x : Nat) : Out Unit × Store :=
  if validName n then (.ok (), { s with values := s.values.set n ⟨1, 1, [x]⟩ }) else (.raise, s)

/-- `setString` (46-53). -/
def setString (s : Store) (n : Name) (v : List Nat) : Out Unit × Store :=
  if validName n then
    (.ok (), { values := s.values.erase n, strings := s.strings.set n v })
  else (.raise, s)

/-- `setMatrix` (hpp 121-129): the string of that name goes before the name is checked. -/
def setMatrix (s : Store) (n : Name) (m : Mat) : Out Unit × Store :=
  let s := { s with strings := s.strings.erase n }
  if validName n then (.ok (), { s with values := s.values.set n m }) else (.raise, s)

/-- `setVector` (hpp 131-137). -/
def setVector (s : Store) (n : Name) (m : Mat) : Out Unit × Store :=
  if m.cols ≠ 1 then (.raise, s)
  else if validName n then (.ok (), { s with values := s.values.set n m }) else (.raise, s)

/-- `createMatrix` (66-79) followed by the caller filling the returned matrix with `m`. -/
def createMatrix (s : Store) (n : Name) (m : Mat) (overwrite : Bool) : Out Unit × Store :=
  if !overwrite && (s.values.find n).isSome then (.raise, s)
  else (.ok (), { s with values := s.values.set n m })

/-- `getMatrix` (81-94). -/
def getMatrix (s : Store) (n : Name) : Out Mat :=
  match s.values.find n with
  | some m => .ok m
  | none => .raise

/-- `getVector` (96-107). -/
def getVector (s : Store) (n : Name) : Out (List Nat) :=
  match s.values.find n with
  | some m => if m.cols = 1 then .ok (m.data.take m.rows) else .raise
  | none => .raise

/-- `getScalar` (113-126). -/
def getScalar (s : Store) (n : Name) : Out Nat :=
  match s.values.find n with
  | some m => if m.rows = 1 ∧ m.cols = 1 then
      (match m.data[0]? with | some x => .ok x | none => .ub) else .raise
  | none => .raise

/-- `getString` (136-143). -/
def getString (s : Store) (n : Name) : Out (List Nat) :=
  match s.strings.find n with
  | some v => .ok v
  | none => .raise

/-- `sizeStrings` (172-175). -/
def sizeStrings (s : Store) : Nat := s.strings.length

/-- `sizeMatrices` (176-179). -/
def sizeMatrices (s : Store) : Nat := s.strings.length

/-- `size` (168-171). -/
def size (s : Store) : Nat := sizeStrings s + sizeMatrices s

/-- `writeName` (196-203): right-aligned in 32 characters. -/
def writeName (n : Name) : Out (List Nat) :=
  if validName n then .ok (List.replicate (32 - n.length) 32 ++ n) else .raise

/-- The value of a `boost::uint32_t`. -/
def u32 (n : Nat) : Nat := n % 4294967296

/-- The bytes of the entries. -/
def dataBytes (d : List Nat) : List Nat := d.flatMap (Archive.leBytes 8)

/-- `writeMatrixBlock` (205-227); `rows * cols * sizeof(double)` is cut to 32 bits. -/
def writeMatrixBlock (n : Name) (m : Mat) : Out (List Nat) := do
  let nm ← writeName n
  let dataSize := u32 (u32 (u32 m.rows * u32 m.cols) * 8)
  return 65 :: nm ++ Archive.leBytes 4 (u32 m.rows) ++ Archive.leBytes 4 (u32 m.cols) ++
    (dataBytes m.data).take dataSize ++ [66]

/-- `writeStringBlock` (252-267). -/
def writeStringBlock (n : Name) (v : List Nat) : Out (List Nat) := do
  let nm ← writeName n
  return 83 :: nm ++ Archive.leBytes 4 (u32 v.length) ++ v.take (u32 v.length) ++ [66]

/-- `fin.read(…, k)`: the bytes and the rest. -/
def readN (k : Nat) (s : List Nat) : Out (List Nat × List Nat) :=
  if s.length < k then .ub else .ok (s.take k, s.drop k)

/-- Cut a list of bytes into 64-bit entries. -/
def entries : Nat → List Nat → List Nat
  | 0, _ => []
  | k + 1, bs => Archive.ofLE (bs.take 8) :: entries k (bs.drop 8)

/-- `readMatrix` (235-250); entries beyond `rows*cols mod 2^32` stay indeterminate. -/
def readMatrix (s : List Nat) : Out (Mat × List Nat) := do
  let r ← readN 4 s
  let c ← readN 4 r.2
  let rows := Archive.ofLE r.1
  let cols := Archive.ofLE c.1
  let d ← readN (u32 (rows * cols) * 8) c.2
  if 4294967296 ≤ rows * cols then .ub
  else return (⟨rows, cols, entries (rows * cols) d.1⟩, d.2)

/-- `readString` (269-278). -/
def readString (s : List Nat) : Out (List Nat × List Nat) := do
  let r ← readN 4 s
  readN (Archive.ofLE r.1) r.2

/-- `isspace` in the "C" locale. -/
def isSpace (c : Nat) : Bool := c == 32 || (9 ≤ c && c ≤ 13)

/-- `name = nameBuffer; boost::trim(name)` (299-300). -/
def trim (b : List Nat) : Name :=
  (((b.takeWhile (· != 0)).dropWhile isSpace).reverse.dropWhile isSpace).reverse

/-- What a block holds. -/
inductive Block where
  | matrix (m : Mat)
  | string (v : List Nat)

/-- `readBlock` (280-314). -/
def readBlock (s : List Nat) : Out ((Name × Block) × List Nat) := do
  let st ← readN 1 s
  if st.1 = [83] then
    let nm ← readN 32 st.2
    let b ← readString nm.2
    let e ← readN 1 b.2
    if e.1 = [66] then return ((trim nm.1, .string b.1), e.2) else .raise
  else if st.1 = [65] then
    let nm ← readN 32 st.2
    let b ← readMatrix nm.2
    let e ← readN 1 b.2
    if e.1 = [66] then return ((trim nm.1, .matrix b.1), e.2) else .raise
  else .raise

/-- `validNames.empty() || validNames.count(name) > 0`. -/
def selected (names : List Name) (n : Name) : Bool := names.isEmpty || decide (n ∈ names)

/-- `saveMatrices` (377-395). -/
def saveMatrices (names : List Name) : List (Name × Mat) → Out (List Nat)
  | [] => .ok []
  | e :: es =>
    if selected names e.1 then do
      let a ← writeMatrixBlock e.1 e.2
      let b ← saveMatrices names es
      return a ++ b
    else saveMatrices names es

/-- `saveStrings` (396-408). -/
def saveStrings (names : List Name) : List (Name × List Nat) → Out (List Nat)
  | [] => .ok []
  | e :: es =>
    if selected names e.1 then do
      let a ← writeStringBlock e.1 e.2
      let b ← saveStrings names es
      return a ++ b
    else saveStrings names es

/-- `save` (371-377): the bytes of the file. -/
def save (names : List Name) (s : Store) : Out (List Nat) := do
  let a ← saveMatrices names s.values
  let b ← saveStrings names s.strings
  return a ++ b

/-- The loop of `load` (418-435) for at most `fuel` blocks; the archive as left behind. -/
def loadLoop (names : List Name) : Nat → List Nat → Store → Out Unit × Store
  | 0, _, s => (.ok (), s)
  | fuel + 1, bs, s =>
    if bs = [] then (.ok (), s)
    else match readBlock bs with
      | .raise => (.raise, s)
      | .ub => (.ub, s)
      | .ok ((n, b), rest) =>
        if selected names n then
          if validName n then
            loadLoop names fuel rest (match b with
              | .matrix m => { s with values := s.values.set n m }
              | .string v => { s with strings := s.strings.set n v })
          else (.raise, s)
        else loadLoop names fuel rest s

/-- `load` (410-437); every block has at least one byte. -/
def load (names : List Name) (file : List Nat) (s : Store) : Out Unit × Store :=
  loadLoop names file.length file s

/-- `append` (439-443): opens the file for appending and writes nothing. -/
def append (_ : List Name) (_ : Store) (file : List Nat) : List Nat := file

/-- Calls that change an archive. -/
inductive Op where
  | setScalar (n : Name) (x : Nat)
  | setString (n : Name) (v : List Nat)
  | setMatrix (n : Name) (m : Mat)
  | setVector (n : Name) (m : Mat)
  | createMatrix (n : Name) (m : Mat) (overwrite : Bool)
  | clear
  | clearName (n : Name)

def step (s : Store) : Op → Out Unit × Store
  | .setScalar n x => MatArchive.setScalar s n x
  | .setString n v => MatArchive.setString s n v
  | .setMatrix n m => MatArchive.setMatrix s n m
  | .setVector n m => MatArchive.setVector s n m
  | .createMatrix n m o => MatArchive.createMatrix s n m o
  | .clear => (.ok (), MatArchive.clear s)
  | .clearName n => (.ok (), MatArchive.clearName s n)

/-- Final archive of a history starting from an empty one. -/
def runFrom (s : Store) : List Op → Store
  | [] => s
  | op :: ops => runFrom (step s op).2 ops

def run (ops : List Op) : Store := runFrom Store.empty ops

end Kalibr.MatArchive
