import Verif.Common
import Verif.Tactics
import Mathlib.Data.Nat.Bitwise

/-!
# Model of `AprilTags::TagFamily`

Source: `/repo/aslam_offline_calibration/aslam_apriltag2/src/TagFamily.cc` and
`include/aslam_apriltag2/TagFamily.h` (marked `h`).

A word (`unsigned long long`) is a natural number below `2^64`; shifting 1 by 64 or more is undefined.
-/

namespace Kalibr.Tag

/-- One pass of the inner loop of `rotate90` (50-56). -/
def rotStep (w d r : Nat) (wr c : Nat) : Out Nat :=
  let b := r + d * c
  if 64 ≤ b then .ub
  else
    let wr := (wr * 2) % 2 ^ 64
    .ok (if w.testBit b then wr ||| 1 else wr)

/-- The inner loop (50-56): `c = 0, …, n-1`. -/
def rotCols (w d r wr : Nat) : Nat → Out Nat
  | 0 => .ok wr
  | n + 1 => do
    let a ← rotCols w d r wr n
    rotStep w d r a n

/-- The outer loop (49-57): `r = d-1, …, d-n`. -/
def rotRows (w d : Nat) : Nat → Out Nat
  | 0 => .ok 0
  | n + 1 => do
    let a ← rotRows w d n
    rotCols w d (d - 1 - n) a d

/-- `rotate90` (45-59). -/
def rotate90 (w d : Nat) : Out Nat := rotRows w d d

/-- `popCountReal` (65-72); `cnt` is an `unsigned char`. -/
def popCountReal (w : Nat) : Nat :=
  if h : w = 0 then 0
  else (popCountReal (w &&& (w - 1)) + 1) % 256
termination_by w
decreasing_by exact Nat.lt_of_le_of_lt Nat.and_le_right (by omega)

/-- `popCountTable[i]` (h 97-102): 12 bits. -/
def popCountTable (i : Nat) : Nat := popCountReal i

/-- `popCount` (74-81). -/
def popCount (w : Nat) : Nat :=
  if h : w = 0 then 0
  else popCountTable (w &&& (4096 - 1)) + popCount (w >>> 12)
termination_by w
decreasing_by
  rw [Nat.shiftRight_eq_div_pow]
  exact Nat.div_lt_self (by omega) (by decide)

/-- `hammingDistance` (61-63). -/
def hammingDistance (a b : Nat) : Nat := popCount (a ^^^ b)

/-- A tag family: `dimension`, `errorRecoveryBits`, `codes`. -/
structure Family where
  dimension : Nat
  errorRecoveryBits : Int
  codes : List Nat

/-- The fields of a `TagDetection` written by `decode`. -/
structure Detection where
  id : Int
  hammingDistance : Nat
  rotation : Nat
  good : Bool
  obsCode : Nat
  code : Nat

/-- `bestHamming`, `bestRotation`, `bestId`, `bestCode`. -/
structure Best where
  hamming : Nat
  rotation : Nat
  id : Int
  code : Nat

/-- The body of the double loop of `decode` (96-104). -/
def consider (rCodes : List Nat) (b : Best) (e : (Nat × Nat) × Nat) : Best :=
  let thisHamming := hammingDistance (rCodes.getD e.1.2 0) e.2
  if thisHamming < b.hamming then ⟨thisHamming, e.1.2, e.1.1, e.2⟩ else b

/-- The iterations of the double loop (94-95): `((id, rot), codes[id])`. -/
def scan (codes : List Nat) : List ((Nat × Nat) × Nat) :=
  (List.range codes.length).flatMap fun id => (List.range 4).map fun rot => ((id, rot), codes.getD id 0)

/-- `INT_MAX`. -/
def intMax : Nat := 2147483647

/-- `decode` (83-112). -/
def decode (f : Family) (rCode : Nat) : Out Detection := do
  let r1 ← rotate90 rCode f.dimension
  let r2 ← rotate90 r1 f.dimension
  let r3 ← rotate90 r2 f.dimension
  let b := (scan f.codes).foldl (consider [rCode, r1, r2, r3]) ⟨intMax, 0, -1, 0⟩
  return { id := b.id, hammingDistance := b.hamming, rotation := b.rotation,
           good := decide ((b.hamming : Int) ≤ f.errorRecoveryBits), obsCode := rCode, code := b.code }

end Kalibr.Tag
