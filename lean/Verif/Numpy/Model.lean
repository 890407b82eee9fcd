import Verif.Common
import Verif.Tactics

/-!
# Model of the conversion between NumPy arrays and Eigen matrices

Sources: `NumpyEigenConverter.hpp`, `copy_routines.hpp` and `type_traits.hpp` in
`/repo/Schweizer-Messer/sm_numpy_eigen/include/sm_numpy_eigen/`.

Simplifications: addresses count elements and not bytes; numbers are rational, and a conversion to a floating point type does not
round.  Arrays are in the byte order of the machine.  The alignment of the storage that Boost provides is not modelled.
`long` has 64 bits.
-/

namespace Kalibr.Numpy

/-- The element types of NumPy. -/
inductive Npy
  | bool | byte | ubyte | short | ushort | int | uint | long | ulong | longlong | ulonglong | float | double | longdouble
  | char | other
  deriving DecidableEq

/-- The C++ types numbers are converted to. -/
inductive CT
  | bool
  | sint (w : Nat)
  | uint (w : Nat)
  | real

/-- The scalar types of the matrices, those with a specialisation of `TypeToNumPy`. -/
inductive Scalar
  | int | int64 | uchar | char | float | double
  deriving DecidableEq

/-- The type of a scalar. -/
def Scalar.ct : Scalar → CT
  | .int => .sint 32
  | .int64 => .sint 64
  | .uchar => .uint 8
  | .char => .sint 8
  | .float => .real
  | .double => .real

/-- `NpyType`, type_traits.hpp 22-89. -/
def Scalar.npy : Scalar → Npy
  | .int => .int
  | .int64 => .long
  | .uchar => .ubyte
  | .char => .byte
  | .float => .float
  | .double => .double

/-- `canConvert`, type_traits.hpp 22-97. -/
def Scalar.canConvert : Scalar → Npy → Bool
  | .int, t => t == .int || t == .long
  | .int64, t => t == .int || t == .long
  | .uchar, t => t == .ubyte || t == .byte || t == .char
  | .char, t => t == .ubyte || t == .byte || t == .char
  | .float, t => t == .int || t == .float || t == .long
  | .double, t => t == .int || t == .float || t == .double || t == .long

/-- The cases of `numpyTypeDemuxer`, copy_routines.hpp 94-141; `none`: it throws. -/
def Npy.ct : Npy → Option CT
  | .bool => some .bool
  | .byte => some (.sint 8)
  | .ubyte => some (.uint 8)
  | .short => some (.sint 16)
  | .ushort => some (.uint 16)
  | .int => some (.sint 32)
  | .uint => some (.uint 32)
  | .long => some (.sint 64)
  | .ulong => some (.uint 64)
  | .longlong => some (.sint 64)
  | .ulonglong => some (.uint 64)
  | .float => some .real
  | .double => some .real
  | .longdouble => some .real
  | .char => none
  | .other => none

/-- `static_cast`; that of a number with a fraction to an integer, which no accepted pair of types needs, drops it. -/
def cast : CT → ℚ → ℚ
  | .bool, x => if x = 0 then 0 else 1
  | .sint w, x => ((x.num.tdiv x.den).bmod (2 ^ w) : Int)
  | .uint w, x => ((x.num.tdiv x.den) % 2 ^ w : Int)
  | .real, x => x

/-- An array: `dims` and `strides` have `ndim` entries, element `(i, j)` is at `base + i * strides[0] + j * strides[1]`. -/
structure Arr where
  dtype : Npy
  dims : List Nat
  strides : List Int
  base : Int
  mem : Int → ℚ

/-- A matrix type: `none` is `Eigen::Dynamic`. -/
structure Ty where
  scalar : Scalar
  rows : Option Nat
  cols : Option Nat
  maxRows : Option Nat
  maxCols : Option Nat

/-- A matrix. -/
structure Mat where
  rows : Nat
  cols : Nat
  get : Nat → Nat → ℚ

/-- `PyArray_GETPTR1`. -/
def Arr.ptr1 (a : Arr) (i : Nat) : Int := a.base + i * a.strides.getD 0 0

/-- `PyArray_GETPTR2`. -/
def Arr.ptr2 (a : Arr) (i j : Nat) : Int := a.base + i * a.strides.getD 0 0 + j * a.strides.getD 1 0

/-- `*p = x`. -/
def Arr.store (a : Arr) (p : Int) (x : ℚ) : Arr := { a with mem := Function.update a.mem p x }

/-- `(*M)(r, c) = x`. -/
def Mat.store (M : Mat) (r c : Nat) (x : ℚ) : Mat := { M with get := fun r' c' => if r' = r ∧ c' = c then x else M.get r' c' }

/-- `(*M)(i)` for a matrix type with one row or one column: the position. -/
def Mat.pos (M : Mat) (i : Nat) : Nat × Nat := if M.rows = 1 then (0, i) else (i, 0)

/-- `M.size()`. -/
def Mat.size (M : Mat) : Nat := M.rows * M.cols

/-- Two nested loops. -/
def loop2 {σ : Type} (rows cols : Nat) (f : σ → Nat → Nat → σ) (s : σ) : σ :=
  (List.range rows).foldl (fun s r => (List.range cols).foldl (fun s c => f s r c) s) s

/-- `PyArray_SimpleNew`: rows one after the other; what the memory holds is not said. -/
def simpleNew (junk : Int → ℚ) (dims : List Nat) (t : Npy) : Arr :=
  ⟨t, dims, match dims with
    | [_] => [1]
    | [_, c] => [(c : Int), 1]
    | _ => [], 0, junk⟩

/-- `CopyEigenToNumpyMatrix`, copy_routines.hpp 28-48. -/
def copyToMatrix (T : CT) (M : Mat) (a : Arr) : Arr :=
  loop2 M.rows M.cols (fun a r c => a.store (a.ptr2 r c) (cast T (M.get r c))) a

/-- `CopyEigenToNumpyVector`, copy_routines.hpp 50-67. -/
def copyToVector (T : CT) (M : Mat) (a : Arr) : Arr :=
  (List.range M.size).foldl (fun a i => a.store (a.ptr1 i) (cast T (M.get (M.pos i).1 (M.pos i).2))) a

/-- `CopyNumpyToEigenMatrix`, copy_routines.hpp 5-26; the number read has the type of the array already. -/
def copyFromMatrix (s : Scalar) (a : Arr) (M : Mat) : Mat :=
  loop2 M.rows M.cols (fun M r c => M.store r c (cast s.ct (a.mem (a.ptr2 r c)))) M

/-- `CopyNumpyToEigenVector`, copy_routines.hpp 70-87. -/
def copyFromVector (s : Scalar) (a : Arr) (M : Mat) : Mat :=
  (List.range M.size).foldl (fun M i => M.store (M.pos i).1 (M.pos i).2 (cast s.ct (a.mem (a.ptr1 i)))) M

/-- `convert`, NumpyEigenConverter.hpp 84-111. -/
def toPython (junk : Int → ℚ) (ty : Ty) (M : Mat) : Out Arr :=
  if ty.rows = some 1 ∨ ty.cols = some 1 then
    let a := simpleNew junk [M.size] ty.scalar.npy
    match a.dtype.ct with
    | some T => .ok (copyToVector T M a)
    | none => .raise
  else
    let a := simpleNew junk [M.rows, M.cols] ty.scalar.npy
    match a.dtype.ct with
    | some T => .ok (copyToMatrix T M a)
    | none => .raise

/-- `int rows = PyArray_DIM(...)`: the size of an array has 64 bits. -/
def toInt (n : Nat) : Int := (n : Int).bmod (2 ^ 32)

/-- `isDimensionValid`, NumpyEigenConverter.hpp 113-130. -/
def isDimensionValid (requested : Int) (size max : Option Nat) : Bool :=
  match size with
  | none =>
    match max with
    | none => true
    | some m => decide (requested ≤ m)
  | some s => decide ((s : Int) = requested)

/-- `convertible`, NumpyEigenConverter.hpp 132-230: `ok false` leaves the object to other converters. -/
def convertible (ty : Ty) (a : Arr) : Out Bool :=
  if ty.scalar.canConvert a.dtype = false then .ok false
  else
    match a.dims with
    | [n] =>
      if ty.rows = some 1 then
        (if isDimensionValid (toInt n) ty.cols ty.maxCols then .ok true else .raise)
      else if ty.cols = none ∨ ty.cols = some 1 then
        (if isDimensionValid (toInt n) ty.rows ty.maxRows then .ok true else .raise)
      else .raise
    | [r, c] =>
      if isDimensionValid (toInt r) ty.rows ty.maxRows && isDimensionValid (toInt c) ty.cols ty.maxCols then .ok true else .raise
    | _ => .raise

/-- `M.resize(rows, cols)`: undefined for negative sizes. -/
def resize (rows cols : Int) : Out Mat :=
  if 0 ≤ rows ∧ 0 ≤ cols then .ok ⟨rows.toNat, cols.toNat, fun _ _ => 0⟩ else .ub

/-- `construct`, NumpyEigenConverter.hpp 233-288. -/
def construct (ty : Ty) (a : Arr) : Out Mat :=
  match a.dims with
  | [n] =>
    (if ty.rows = some 1 then resize 1 (toInt n) else resize (toInt n) 1).bind fun M =>
      match a.dtype.ct with
      | some _ => .ok (copyFromVector ty.scalar a M)
      | none => .raise
  | [r, c] =>
    (resize (toInt r) (toInt c)).bind fun M =>
      match a.dtype.ct with
      | some _ => .ok (copyFromMatrix ty.scalar a M)
      | none => .raise
  | _ => .ub

/-- An array passed to a function that takes a matrix: `ok none` if the type is not accepted. -/
def fromPython (ty : Ty) (a : Arr) : Out (Option Mat) :=
  (convertible ty a).bind fun b => if b then (construct ty a).bind fun M => .ok (some M) else .ok none

/-! ## Specification -/

/-- What a C++ type can hold. -/
def Holds : CT → ℚ → Prop
  | .bool, x => x = 0 ∨ x = 1
  | .sint w, x => ∃ z : Int, x = z ∧ -2 ^ (w - 1) ≤ z ∧ z < 2 ^ (w - 1)
  | .uint w, x => ∃ z : Int, x = z ∧ 0 ≤ z ∧ z < 2 ^ w
  | .real, _ => True

/-- The matrix type can have this number of rows or columns. -/
def Allows (size max : Option Nat) (n : Nat) : Prop := (∀ s, size = some s → n = s) ∧ ∀ m, size = none → max = some m → n ≤ m

/-- The matrix type can have this size. -/
def Ty.Fits (ty : Ty) (r c : Nat) : Prop := Allows ty.rows ty.maxRows r ∧ Allows ty.cols ty.maxCols c

/-- Element `(i, j)` of an array of two dimensions. -/
def Arr.elem2 (a : Arr) (i j : Nat) : ℚ := a.mem (a.ptr2 i j)

/-- Element `i` of an array of one dimension. -/
def Arr.elem1 (a : Arr) (i : Nat) : ℚ := a.mem (a.ptr1 i)

end Kalibr.Numpy
