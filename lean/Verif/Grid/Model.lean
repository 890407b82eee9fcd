import Mathlib.Algebra.Order.Floor.Ring
import Mathlib.Data.Rat.Floor
import Verif.Common
import Verif.Tactics

/-!
# Model of `aslam::calibration::Grid`

Source: `/repo/aslam_incremental_calibration/aslam_incremental_calibration/include/aslam_incremental_calibration/data-structures/Grid.tpp`.

The number of dimensions is the length of the lists.  Coordinates of a floating point type are modelled
as rationals; the integral coordinate types are modelled as integers (`IDim`).  Indices are integers, as
in the code.  Eigen's coefficient-wise operations on vectors of different sizes are the outcome `ub`.
Overflow of the index type and of the number of cells is not modelled.
-/

namespace Kalibr.Grid

/-- One dimension of a grid with floating point coordinates. -/
structure Dim where
  lo : ℚ
  hi : ℚ
  res : ℚ
  deriving DecidableEq

/-- The number of cells, lines 49-50 with `Traits::ceil` of line 300. -/
def Dim.numCells (d : Dim) : Int := ⌈(d.hi - d.lo) / d.res⌉

/-- The index of a coordinate, lines 191-194: the quotient is converted to an integer. -/
def Dim.index (d : Dim) (p : ℚ) : Int :=
  if p = d.hi then d.numCells - 1
  else if 0 ≤ (p - d.lo) / d.res then ⌊(p - d.lo) / d.res⌋ else ⌈(p - d.lo) / d.res⌉

/-- The coordinate of the centre, line 217. -/
def Dim.centre (d : Dim) (i : Int) : ℚ := d.lo + (i + 1 / 2) * d.res

/-- One dimension of a grid with integral coordinates. -/
structure IDim where
  lo : Int
  hi : Int
  res : Int

/-- Lines 49-50 with `Traits::ceil` of line 306; the quotient is an integer quotient. -/
def IDim.numCells (d : IDim) : Int := (d.hi - d.lo).tdiv d.res + 1

/-- Lines 191-194. -/
def IDim.index (d : IDim) (p : Int) : Int :=
  if p = d.hi then d.numCells - 1 else (p - d.lo).tdiv d.res

/-- Line 217: the double is converted to an integer, rounding toward zero. -/
def IDim.centre (d : IDim) (i : Int) : Int :=
  let x : ℚ := d.lo + (i + 1 / 2) * d.res
  if 0 ≤ x then ⌊x⌋ else ⌈x⌉

/-- `mLinProd`, lines 53-55. -/
def linProd : List Int → List Int
  | [] => []
  | _ :: ns => ns.prod :: linProd ns

/-- `computeLinearIndex`, lines 265-270, before the conversion to `size_t`. -/
def linearIndex (ns idx : List Int) : Int := (List.zipWith (· * ·) (linProd ns) idx).sum

/-- `isValidIndex`, lines 228-231. -/
def isValidIndex (ns idx : List Int) : Bool := (List.zipWith (fun i n => decide (i < n)) idx ns).all id

/-- A grid with floating point coordinates and cells of type `C`. -/
structure Grid (C : Type) where
  dims : List Dim
  numCells : List Int
  cells : List C
  deriving DecidableEq

/-- Constructor, lines 30-59; `c` is a default constructed cell. -/
def Grid.make {C : Type} (dims : List Dim) (c : C) : Out (Grid C) :=
  if dims.any fun d => decide (d.res ≤ 0) then .raise
  else if dims.any fun d => decide (d.hi ≤ d.lo) then .raise
  else if dims.any fun d => decide (d.hi - d.lo < d.res) then .raise
  else .ok ⟨dims, dims.map Dim.numCells, List.replicate (dims.map Dim.numCells).prod.toNat c⟩

/-- `getCell`, lines 152-167. -/
def Grid.getCell {C : Type} (g : Grid C) (idx : List Int) : Out C :=
  if idx.length ≠ g.numCells.length then .ub
  else if isValidIndex g.numCells idx = false then .raise
  else
    let k := linearIndex g.numCells idx
    if k < 0 then .ub
    else match g.cells[k.toNat]? with
      | some c => .ok c
      | none => .ub

/-- Writing through the reference returned by `getCell`. -/
def Grid.setCell {C : Type} (g : Grid C) (idx : List Int) (c : C) : Out (Grid C) :=
  if idx.length ≠ g.numCells.length then .ub
  else if isValidIndex g.numCells idx = false then .raise
  else
    let k := linearIndex g.numCells idx
    if k < 0 then .ub
    else if k.toNat < g.cells.length then .ok { g with cells := g.cells.set k.toNat c }
    else .ub

/-- `isInRange`, lines 222-225. -/
def Grid.isInRange {C : Type} (g : Grid C) (p : List ℚ) : Bool :=
  (List.zipWith (fun x d => decide (x ≤ d.hi)) p g.dims).all id &&
    (List.zipWith (fun (x : ℚ) d => decide (d.lo ≤ x)) p g.dims).all id

/-- `getIndex`, lines 182-197. -/
def Grid.getIndex {C : Type} (g : Grid C) (p : List ℚ) : Out (List Int) :=
  if p.length ≠ g.dims.length then .ub
  else if g.isInRange p = false then .raise
  else .ok (List.zipWith Dim.index g.dims p)

/-- `operator ()`, lines 199-209. -/
def Grid.at {C : Type} (g : Grid C) (p : List ℚ) : Out C := (g.getIndex p).bind g.getCell

/-- `getCoordinates`, lines 211-220. -/
def Grid.getCoordinates {C : Type} (g : Grid C) (idx : List Int) : Out (List ℚ) :=
  if idx.length ≠ g.numCells.length then .ub
  else if isValidIndex g.numCells idx = false then .raise
  else .ok (List.zipWith Dim.centre g.dims idx)

/-- `reset`, lines 272-276. -/
def Grid.reset {C : Type} (g : Grid C) (c : C) : Grid C := { g with cells := g.cells.map fun _ => c }

/-- The loop of `incrementIndex`, lines 279-294, from some dimension on; `none` when the last dimension
overflows. -/
def incLoop : List Int → List Int → Option (List Int)
  | n :: ns, i :: is =>
    if i + 1 < n then some ((i + 1) :: is)
    else match is with
      | [] => none
      | _ :: _ => (incLoop ns is).map (0 :: ·)
  | _, is => some is

/-- `incrementIndex`, lines 278-295. -/
def incrementIndex (ns idx : List Int) : List Int := (incLoop ns idx).getD ns

end Kalibr.Grid
