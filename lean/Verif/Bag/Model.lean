import Verif.Common
import Verif.Tactics
import Mathlib.Data.Nat.Digits.Lemmas
import Mathlib.Data.List.Sort
import Mathlib.Algebra.Order.Floor.Ring
import Mathlib.Data.Rat.Floor

/-!
# Model of the tools that extract a bag into files and make a bag from files

Sources: `kalibr_bagextractor` and `kalibr_bagcreater` in `/repo/aslam_offline_calibration/kalibr/python/` (cited as `extractor`
and `creater`).

Simplifications: one image topic; its folder holds nothing but the images that were written, all with the extension `.png`.  Strings
of digits are lists of digits, the first digit first.  Pixels are kept by the PNG files and are not modelled.
-/

namespace Kalibr.Bag

/-- `rospy.Time`. -/
structure Time where
  secs : Nat
  nsecs : Nat
  deriving DecidableEq

/-- `str(n)` for an integer. -/
def str (n : Nat) : List Nat := if n = 0 then [0] else (Nat.digits 10 n).reverse

/-- `"{:09d}".format(n)`. -/
def pad9 (n : Nat) : List Nat := List.replicate (9 - (str n).length) 0 ++ str n

/-- `int(s)` of a string of digits. -/
def toInt (s : List Nat) : Out Nat := if s = [] then .raise else .ok (Nat.ofDigits 10 s.reverse)

/-- The name of the file of an image without the extension, extractor 66. -/
def imageName (t : Time) : List Nat := str t.secs ++ pad9 t.nsecs

/-- `rospy.Time(secs=int(s[0:-9]), nsecs=int(s[-9:]))`, creater 72-73 and 86-87. -/
def stamp (s : List Nat) : Out Time :=
  (toInt (s.take (s.length - 9))).bind fun a => (toInt (s.drop (s.length - 9))).bind fun b => .ok ⟨a, b⟩

/-- `cv2.imwrite`: a file of the same name is replaced. -/
def imwrite {Img : Type} (folder : List (List Nat × Img)) (name : List Nat) (image : Img) : List (List Nat × Img) :=
  folder.filter (fun f => f.1 ≠ name) ++ [(name, image)]

/-- The loop over the images, extractor 62-69. -/
def extractImages {Img : Type} (dataset : List (Time × Img)) : List (List Nat × Img) :=
  dataset.foldl (fun folder m => imwrite folder (imageName m.1) m.2) []

/-- Comparison of two strings, as `sorted` does: the first difference decides. -/
def strLe : List Nat → List Nat → Bool
  | [], _ => true
  | _ :: _, [] => false
  | a :: s, b :: t => decide (a < b) || (decide (a = b) && strLe s t)

/-- `getImageFilesFromDir`, creater 33-46: `os.walk` lists the files in any order, they are sorted by name. -/
def imageFiles {Img : Type} (files : List (List Nat × Img)) : List (List Nat × Img) := files.mergeSort fun a b => strLe a.1 b.1

/-- The loop over the files, creater 109-111: what is written to the bag, in this order. -/
def packImages {Img : Type} : List (List Nat × Img) → Out (List (Time × Img))
  | [] => .ok []
  | f :: fs => (stamp f.1).bind fun t => (packImages fs).bind fun r => .ok ((t, f.2) :: r)

/-- The images of a folder, creater 105-111. -/
def createImages {Img : Type} (files : List (List Nat × Img)) : Out (List (Time × Img)) := packImages (imageFiles files)

/-- How a file is opened. -/
inductive Mode
  | text
  | binary

/-- `csv.writer(f).writerow(row)` in Python 3, the interpreter the tools ask for: writes a `str`, which a file opened for bytes refuses
with a `TypeError`. -/
def writerow {Row : Type} (m : Mode) (file : List Row) (row : Row) : Out (List Row) :=
  match m with
  | .text => .ok (file ++ [row])
  | .binary => .raise

/-- `next(csv.reader(f), None)` in Python 3: lines that are bytes are refused. -/
def readrow {Row : Type} (m : Mode) (file : List Row) : Out (Option Row × List Row) :=
  match m, file with
  | _, [] => .ok (none, [])
  | .text, r :: rs => .ok (some r, rs)
  | .binary, _ :: _ => .raise

/-- `for row in ...: writerow(row)`. -/
def writerows {Row : Type} (m : Mode) : List Row → List Row → Out (List Row)
  | file, [] => .ok file
  | file, r :: rs => (writerow m file r).bind fun file => writerows m file rs

/-- A measurement: three angular velocities and three accelerations. -/
abbrev Meas := Fin 6 → ℚ

/-- `int(timestamp.toSec()*1e9)`, extractor 92; `toSec` is `float(secs) + float(nsecs) / 1e9`, and `fl` rounds. -/
def imuStamp (fl : ℚ → ℚ) (t : Time) : Int := ⌊fl (fl (t.secs + fl (t.nsecs / 10 ^ 9)) * 10 ^ 9)⌋

/-- The measurements of a topic, extractor 87-94: the file is opened with `'wb'`.  A row is the header or numbers. -/
def extractImu (fl : ℚ → ℚ) (dataset : List (Time × Meas)) : Out (List (Option (Int × Meas))) :=
  (writerow .binary [] none).bind fun file => writerows .binary file (dataset.map fun m => some (imuStamp fl m.1, m.2))

/-- The measurements of a file, creater 117-122: the file is opened with `'rb'`. -/
def createImu (file : List (List Nat × Meas)) : Out (List (Time × Meas)) :=
  (readrow .binary file).bind fun r => go r.2
where
  go : List (List Nat × Meas) → Out (List (Time × Meas))
    | [] => .ok []
    | f :: fs => (stamp f.1).bind fun t => (go fs).bind fun r => .ok ((t, f.2) :: r)

/-! ## Specification -/

/-- The time in nanoseconds. -/
def Time.total (t : Time) : Nat := t.secs * 10 ^ 9 + t.nsecs

/-- What is needed of the rounding of doubles: it is monotone, keeps small integers, and between `2^30` and `2^31` there are only
multiples of `2^(-22)`. -/
structure Rounding (fl : ℚ → ℚ) : Prop where
  mono : ∀ x y, x ≤ y → fl x ≤ fl y
  int : ∀ n : Nat, n ≤ 2 ^ 31 → fl n = n
  grid : ∀ x, 2 ^ 30 ≤ x → x ≤ 2 ^ 31 → ∃ k : Int, fl x = k / 2 ^ 22

end Kalibr.Bag
