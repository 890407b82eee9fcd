import Verif.Common
import Mathlib.Data.Real.Basic

/-!
# Writing a sparse matrix to a file

A model of `writeCCSMatrix` (aslam_optimizer/aslam_sparse_block_matrix/include/aslam_sparse_block_matrix/implementation/
sparse_helper.h:23-58, sparse_helper.h:35-48).  The three arrays of the compressed columns are functions of the index, so that
they are long enough.  The values are real numbers and are kept as they are: the rounding to nine digits of the text is not
modelled.  The file system is not modelled: the result is the content of the file.
-/

namespace Kalibr.Ccs

/-- `TripletEntry` (sparse_helper.h:35-40). -/
structure Entry where
  r : ℕ
  c : ℕ
  x : ℝ

/-- `TripletColSort` (sparse_helper.h:41-47). -/
def less (a b : Entry) : Bool := a.c < b.c || (a.c == b.c && a.r < b.r)

/-- What one stored value adds to `entries` (implementation/sparse_helper.h:33-35). -/
def push (sym : Bool) (Ai : ℕ → ℕ) (Ax : ℕ → ℝ) (i j : ℕ) : List Entry :=
  ⟨Ai j, i, Ax j⟩ :: (if sym && Ai j != i then [⟨i, Ai j, Ax j⟩] else [])

/-- The two loops (implementation/sparse_helper.h:27-37). -/
def entries (cols : ℕ) (Ap Ai : ℕ → ℕ) (Ax : ℕ → ℝ) (sym : Bool) : List Entry :=
  (List.range cols).flatMap fun i =>
    (List.range' (Ap i) (Ap (i + 1) - Ap i)).flatMap fun j => push sym Ai Ax i j

/-- What `std::sort` may leave in `l` (implementation/sparse_helper.h:38): the same entries, none before a smaller one.  The
order of entries that are neither smaller nor larger is not specified. -/
def Sorts (l out : List Entry) : Prop := out.Perm l ∧ out.Pairwise fun a b => less b a = false

/-- `name.substr(0, name.find_last_of('.'))` (implementation/sparse_helper.h:40-43). -/
def baseName (name : List Char) : List Char :=
  match name.reverse.dropWhile (· != '.') with
  | [] => name
  | _ :: rest => rest.reverse

/-- The content of the file. -/
structure File where
  name : List Char
  nnz : ℕ
  rows : ℕ
  columns : ℕ
  /-- the lines after the header: row, column, value -/
  lines : List (ℕ × ℕ × ℝ)

/-- The file written for the sorted entries `out` (implementation/sparse_helper.h:45-56). -/
def print (filename : List Char) (rows cols : ℕ) (out : List Entry) : File :=
  { name := baseName filename, nnz := out.length, rows := rows, columns := cols,
    lines := out.map fun e => (e.r + 1, e.c + 1, e.x) }

/-- `writeCCSMatrix`: `f` may be the file (implementation/sparse_helper.h:23-58). -/
def Writes (filename : List Char) (rows cols : ℕ) (Ap Ai : ℕ → ℕ) (Ax : ℕ → ℝ) (sym : Bool) (f : File) : Prop :=
  ∃ out, Sorts (entries cols Ap Ai Ax sym) out ∧ f = print filename rows cols out

/-! ## Specification -/

/-- The element of the matrix the compressed columns stand for: the sum of the values stored for it. -/
noncomputable def element (cols : ℕ) (Ap Ai : ℕ → ℕ) (Ax : ℕ → ℝ) (r c : ℕ) : ℝ :=
  if c < cols then (((List.range' (Ap c) (Ap (c + 1) - Ap c)).filter fun j => Ai j == r).map Ax).sum else 0

/-- The element a reader of the file sees: the sum of the values on the lines of its place, which counts from one. -/
noncomputable def File.element (f : File) (r c : ℕ) : ℝ :=
  ((f.lines.filter fun l => l.1 == r + 1 && l.2.1 == c + 1).map fun l => l.2.2).sum

/-- Every row occurs once in a column. -/
def Once (cols : ℕ) (Ap Ai : ℕ → ℕ) : Prop :=
  ∀ i < cols, ∀ j j', Ap i ≤ j → j < Ap (i + 1) → Ap i ≤ j' → j' < Ap (i + 1) → Ai j = Ai j' → j = j'

/-- Nothing is stored below the diagonal. -/
def Upper (cols : ℕ) (Ap Ai : ℕ → ℕ) : Prop := ∀ i < cols, ∀ j, Ap i ≤ j → j < Ap (i + 1) → Ai j ≤ i

end Kalibr.Ccs
