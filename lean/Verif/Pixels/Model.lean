import Verif.Quads.Model
import Verif.UnionFind.Model

/-!
# Model of the pixel part of the tag detector

Sources, below `/repo/aslam_offline_calibration/aslam_apriltag2`: `src/Gaussian.cc` (Gaussian),
`src/FloatImage.cc` (FloatImage), `src/Edge.cc` (Edge), `src/TagDetector.cc` (Detector),
`include/aslam_apriltag2/MathUtil.h` (MathUtil).

`float` and `double` values are exact reals.  A vector of numbers is a function used on its valid
indices; the hypotheses of the theorems keep the accesses valid.
-/

namespace Kalibr.Pixels

open Kalibr.Quads (mod2pi atan2 toInt)
open Kalibr.UnionFind (UF getRep getSetSize connect init)

/-! ## Smoothing -/

/-- Gaussian 8-31: `makeGaussianFilter`. -/
noncomputable def makeGaussianFilter (sigma : ℝ) (n : ℕ) : List ℝ :=
  if sigma = 0 then (List.replicate n (0 : ℝ)).set (n / 2) 1
  else
    let invVariance := 1 / (2 * sigma * sigma)
    let raw := (List.range n).map fun i : ℕ => Real.exp (-((i : ℝ) - (n / 2 : ℕ)) * ((i : ℝ) - (n / 2 : ℕ)) * invVariance)
    raw.map fun v => v / raw.sum

/-- Gaussian 40-49: the value that the first loop writes for `i`. -/
def head (a : ℕ → ℝ) (aoff alen : ℕ) (f : List ℝ) (i : ℕ) : ℝ :=
  ((List.range f.length).map fun j =>
    (if aoff + i < j ∨ aoff + i ≥ alen + j then a aoff else a (aoff + i - j)) * f.getD j 0).sum

/-- Gaussian 51-57: the value that the second loop writes for `i`. -/
def middle (a : ℕ → ℝ) (aoff : ℕ) (f : List ℝ) (i : ℕ) : ℝ :=
  ((List.range f.length).map fun j => a (aoff + i - j) * f.getD j 0).sum

/-- Gaussian 59-68: the value that the third loop writes for `i`. -/
def last (a : ℕ → ℝ) (aoff alen : ℕ) (f : List ℝ) (i : ℕ) : ℝ :=
  ((List.range f.length).map fun j =>
    (if aoff + i ≥ alen + j ∨ aoff + i < j then a (aoff + alen - 1) else a (aoff + i - j)) * f.getD j 0).sum

/-- Gaussian 33-69: `convolveSymmetricCentered`, the output array after the call. -/
def convolve (a : ℕ → ℝ) (aoff alen : ℕ) (f : List ℝ) (r : ℕ → ℝ) (roff : ℕ) : ℕ → ℝ :=
  let h := f.length / 2
  let r := (List.range' h (f.length - h)).foldl (fun r i => Function.update r (roff + i - h) (head a aoff alen f i)) r
  let r := (List.range' f.length (alen - f.length)).foldl
    (fun r i => Function.update r (roff + i - h) (middle a aoff f i)) r
  (List.range' alen h).foldl (fun r i => Function.update r (roff + i - h) (last a aoff alen f i)) r

/-- FloatImage 49-51: the horizontal part of `filterFactoredCentered`. -/
def horizontal (width height : ℕ) (pixels : ℕ → ℝ) (fhoriz : List ℝ) : ℕ → ℝ :=
  (List.range height).foldl (fun r y => convolve pixels (y * width) width fhoriz r (y * width)) pixels

/-- FloatImage 54-69: the vertical part; state: pixels and the column buffer. -/
def vertical (width height : ℕ) (r pixels : ℕ → ℝ) (fvert : List ℝ) : ℕ → ℝ :=
  ((List.range width).foldl (fun (st : (ℕ → ℝ) × (ℕ → ℝ)) x =>
    let tmp := fun y => r (y * width + x)
    let tmp2 := convolve tmp 0 height fvert st.2 0
    ((List.range height).foldl (fun p y => Function.update p (y * width + x) (tmp2 y)) st.1, tmp2))
    (pixels, fun _ => 0)).1

/-- FloatImage 45-70: `filterFactoredCentered`. -/
def filterFactored (width height : ℕ) (pixels : ℕ → ℝ) (fhoriz fvert : List ℝ) : ℕ → ℝ :=
  vertical width height (horizontal width height pixels fhoriz) pixels fvert

/-! ## Gradients -/

/-- FloatImage.h: `get`. -/
def get (width : ℕ) (p : ℕ → ℝ) (x y : ℕ) : ℝ := p (y * width + x)

/-- Detector 148-168: the magnitude image; zero on the border. -/
def magnitude (width height : ℕ) (p : ℕ → ℝ) (x y : ℕ) : ℝ :=
  if 1 ≤ y ∧ y < height - 1 ∧ 1 ≤ x ∧ x < width - 1 then
    let Ix := get width p (x + 1) y - get width p (x - 1) y
    let Iy := get width p x (y + 1) - get width p x (y - 1)
    Ix * Ix + Iy * Iy
  else 0

/-- Detector 148-168: the direction image; zero on the border. -/
noncomputable def direction (width height : ℕ) (p : ℕ → ℝ) (x y : ℕ) : ℝ :=
  if 1 ≤ y ∧ y < height - 1 ∧ 1 ≤ x ∧ x < width - 1 then
    atan2 (get width p x (y + 1) - get width p x (y - 1)) (get width p (x + 1) y - get width p (x - 1) y)
  else 0

/-! ## Edges between pixels -/

/-- Edge 8. -/
noncomputable def minMag : ℝ := 4 / 1000

/-- Edge 9: 30 degrees. -/
noncomputable def maxEdgeCost : ℝ := 30 * Real.pi / 180

/-- Edge 14-24: `edgeCost`. -/
noncomputable def edgeCost (theta0 theta1 mag1 : ℝ) : ℤ :=
  if mag1 < minMag then -1
  else
    let thetaErr := |mod2pi (theta1 - theta0)|
    if thetaErr > maxEdgeCost then -1 else toInt (thetaErr / maxEdgeCost * 100)

/-- `Edge`: the numbers of two pixels and the cost. -/
structure Link where
  a : ℕ
  b : ℕ
  cost : ℤ

/-- Edge 26-67: `calcEdges`, the edges added for one pixel. -/
noncomputable def calcEdges (width : ℕ) (theta mag : ℕ → ℕ → ℝ) (x y : ℕ) : List Link :=
  let theta0 := theta x y
  let c1 := edgeCost theta0 (theta (x + 1) y) (mag (x + 1) y)
  let c2 := edgeCost theta0 (theta x (y + 1)) (mag x (y + 1))
  let c3 := edgeCost theta0 (theta (x + 1) (y + 1)) (mag (x + 1) (y + 1))
  let c4 := if x = 0 then -1 else edgeCost theta0 (theta (x - 1) (y + 1)) (mag (x - 1) (y + 1))
  (if c1 ≥ 0 then [⟨y * width + x, y * width + x + 1, c1⟩] else []) ++
  (if c2 ≥ 0 then [⟨y * width + x, (y + 1) * width + x, c2⟩] else []) ++
  (if c3 ≥ 0 then [⟨y * width + x, (y + 1) * width + x + 1, c3⟩] else []) ++
  (if c4 ≥ 0 then [⟨y * width + x, (y + 1) * width + x - 1, c4⟩] else [])

/-- Detector 213-232: the edges of all pixels with a gradient, before they are sorted. -/
noncomputable def allEdges (width height : ℕ) (theta mag : ℕ → ℕ → ℝ) : List Link :=
  (List.range (height - 1)).flatMap fun y => (List.range (width - 1)).flatMap fun x =>
    if mag x y < minMag then [] else calcEdges width theta mag x y

/-! ## Clusters of pixels -/

/-- The arrays `tmin`, `tmax`, `mmin`, `mmax`. -/
structure Ranges where
  tmin : ℕ → ℝ
  tmax : ℕ → ℝ
  mmin : ℕ → ℝ
  mmax : ℕ → ℝ

/-- Detector 207-225: the arrays before the merging; zero for pixels that the loops do not visit. -/
noncomputable def startRanges (width height : ℕ) (theta mag : ℕ → ℕ → ℝ) : Ranges :=
  let live := fun i => i / width + 1 < height ∧ i % width + 1 < width ∧ ¬ mag (i % width) (i / width) < minMag
  open Classical in
  ⟨fun i => if live i then theta (i % width) (i / width) else 0,
   fun i => if live i then theta (i % width) (i / width) else 0,
   fun i => if live i then mag (i % width) (i / width) else 0,
   fun i => if live i then mag (i % width) (i / width) else 0⟩

open Classical in
/-- Edge 72-115: one round of `mergeEdges`. -/
noncomputable def mergeOne (st : UF × Ranges) (e : Link) : Out (UF × Ranges) := do
  let (uf, g) := st
  let (ida, uf) ← getRep uf e.a
  let (idb, uf) ← getRep uf e.b
  if ida = idb then return (uf, g)
  let (sza, uf) ← getSetSize uf ida
  let (szb, uf) ← getSetSize uf idb
  let tmina := g.tmin ida
  let tmaxa := g.tmax ida
  let tminb := g.tmin idb
  let tmaxb := g.tmax idb
  let costa := tmaxa - tmina
  let costb := tmaxb - tminb
  let bshift := ((tmina + tmaxa) / 2 + mod2pi ((tminb + tmaxb) / 2 - (tmina + tmaxa) / 2)) - (tminb + tmaxb) / 2
  let tminab := min tmina (tminb + bshift)
  let tmaxab := max tmaxa (tmaxb + bshift)
  let tmaxab := if tmaxab - tminab > 2 * Real.pi then tminab + 2 * Real.pi else tmaxab
  let mminab := min (g.mmin ida) (g.mmin idb)
  let mmaxab := max (g.mmax ida) (g.mmax idb)
  let costab := tmaxab - tminab
  if costab ≤ min costa costb + 100 / ((sza : ℝ) + szb) ∧
      mmaxab - mminab ≤ min (g.mmax ida - g.mmin ida) (g.mmax idb - g.mmin idb) + 1200 / ((sza : ℝ) + szb) then
    let (idab, uf) ← connect uf ida idb
    return (uf, ⟨Function.update g.tmin idab tminab, Function.update g.tmax idab tmaxab,
      Function.update g.mmin idab mminab, Function.update g.mmax idab mmaxab⟩)
  else return (uf, g)

/-- Edge 69-117: `mergeEdges`, over the sorted edges. -/
noncomputable def mergeEdges : List Link → UF × Ranges → Out (UF × Ranges)
  | [], st => .ok st
  | e :: es, st => mergeOne st e >>= mergeEdges es

end Kalibr.Pixels
