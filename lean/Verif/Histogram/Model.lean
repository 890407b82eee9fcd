import Verif.Grid.Props
import Verif.Tactics

/-!
# Model of the histograms of the incremental calibration

Sources: `HistogramMv.tpp` and `Histogram1v.tpp` in
`/repo/aslam_incremental_calibration/aslam_incremental_calibration/include/aslam_incremental_calibration/statistics/`, on
the grid of `Verif/Grid/Model.lean` with cells that are numbers.

Simplifications: exact arithmetic; floating point coordinates.  A division by zero gives zero here and a NaN in the code,
the theorems exclude it.  A return from inside a loop is a state that the rest of the loop keeps.
-/

namespace Kalibr.Histogram

open Kalibr.Grid

/-- The constructor, `Histogram1v.tpp` 27-32 and `HistogramMv.tpp` 27-32: a grid of cells that are zero. -/
def make (dims : List Dim) : Out (Grid ℚ) := Grid.make dims 0

/-- `addSample`, `HistogramMv.tpp` 102-106, `Histogram1v.tpp` 108-112. -/
def addSample (g : Grid ℚ) (p : List ℚ) : Out (Grid ℚ) :=
  if g.isInRange p = true then
    (g.getIndex p).bind fun i => (g.getCell i).bind fun c => g.setCell i (c + 1)
  else .ok g

/-- `addSamples`, `HistogramMv.tpp` 108-112, `Histogram1v.tpp` 114-118. -/
def addSamples : Grid ℚ → List (List ℚ) → Out (Grid ℚ)
  | g, [] => .ok g
  | g, p :: ps => (addSample g p).bind fun g' => addSamples g' ps

/-- `getSum`, `HistogramMv.tpp` 94-100, `Histogram1v.tpp` 100-106. -/
def getSum (g : Grid ℚ) : ℚ := g.cells.foldl (· + ·) 0

/-- `getNormalized`, `HistogramMv.tpp` 114-121, `Histogram1v.tpp` 120-127. -/
def getNormalized (g : Grid ℚ) : Grid ℚ := { g with cells := g.cells.map (· / getSum g) }

/-- The loops `for (Index i = 0; i != mNumCells; incrementIndex(i))`; more steps than there are cells are not made. -/
def walk {β : Type} (g : Grid ℚ) (body : β → List Int → Out β) : ℕ → List Int → β → Out β
  | 0, _, _ => .ub
  | fuel + 1, i, b => if i = g.numCells then .ok b
    else (body b i).bind fun b' => walk g body fuel (incrementIndex g.numCells i) b'

/-- The loop from the first index. -/
def loop {β : Type} (g : Grid ℚ) (body : β → List Int → Out β) (b : β) : Out β :=
  walk g body (g.numCells.prod.toNat + 1) (g.numCells.map fun _ => 0) b

/-- `getCoordinates(i)(0)`. -/
def coordinate (g : Grid ℚ) (i : List Int) : Out ℚ :=
  (g.getCoordinates i).bind fun c => match c with
    | x :: _ => .ok x
    | [] => .ub

/-- `getMean`, `Histogram1v.tpp` 54-61. -/
def getMean (g : Grid ℚ) : Out ℚ :=
  (loop g (fun m i => (coordinate g i).bind fun x => (g.getCell i).bind fun c => .ok (m + x * c)) 0).bind fun m =>
    .ok (m / getSum g)

/-- `getMedian`, `Histogram1v.tpp` 63-74. -/
def getMedian (g : Grid ℚ) : Out ℚ :=
  (loop g (fun (s : ℚ × Option ℚ) i => match s.2 with
    | some _ => .ok s
    | none => (g.getCell i).bind fun c =>
      if s.1 + c ≥ getSum g * (1 / 2) then (coordinate g i).bind fun x => .ok (s.1 + c, some x) else .ok (s.1 + c, none)) (0, none)).bind
    fun s => match s.2 with
      | some x => .ok x
      | none => match g.dims with
        | d :: _ => .ok d.lo
        | [] => .ub

/-- `getMode`, `Histogram1v.tpp` 76-88; `none` stands for the negative infinity and the index that is not set. -/
def getMode (g : Grid ℚ) : Out ℚ :=
  (loop g (fun (s : Option (ℚ × List Int)) i => (g.getCell i).bind fun c => match s with
    | none => .ok (some (c, i))
    | some (m, j) => if c > m then .ok (some (c, i)) else .ok (some (m, j))) none).bind fun s => match s with
      | some (_, i) => coordinate g i
      | none => .ub

/-- `getVariance`, `Histogram1v.tpp` 90-98. -/
def getVariance (g : Grid ℚ) : Out ℚ :=
  (getMean g).bind fun mean =>
    (loop g (fun v i => (coordinate g i).bind fun x => (g.getCell i).bind fun c => .ok (v + (x - mean) * (x - mean) * c)) 0).bind
      fun v => .ok (v / (getSum g - 1))

end Kalibr.Histogram
