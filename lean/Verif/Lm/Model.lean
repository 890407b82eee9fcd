import Verif.Common
import Mathlib.Data.Nat.Notation
import Mathlib.Logic.Function.Basic

/-!
# Landmarks

A model of `aslam::Landmark` (aslam_cv/aslam_cameras/src/Landmark.cpp, Landmark) with the part of `Keypoint`
(aslam_cv/aslam_cameras/include/aslam_cameras/implementation/Keypoint.hpp, Keypoint) that it reads.  Descriptors are objects on a
heap: `D` is their value, their addresses are numbers, given in order.  `P` is the type of uncertain homogeneous points; a
transformation is a function on them.
-/

namespace Kalibr.Lm

variable {D P : Type}

/-- The members of a landmark (Landmark.hpp:129-139). -/
structure Landmark (P : Type) where
  desc : Option ℕ
  ph : P
  lid : ℕ
  frame : ℕ

/-- What is read of a keypoint; `landmark` is a pointer that may be null (Keypoint 186-198). -/
structure Keypoint (P : Type) where
  desc : Option ℕ
  landmark : Option P
  lid : ℕ

/-- The heap of descriptors, the next address and the landmarks of a program. -/
structure St (D P : Type) where
  heap : ℕ → D
  next : ℕ
  lm : ℕ → Landmark P

/-- The copy constructor (Landmark 14-19). -/
def copyOf (l : Landmark P) : Landmark P := ⟨l.desc, l.ph, l.lid, l.frame⟩

/-- Exchanging the members of two landmarks. -/
def exchange (f : ℕ → Landmark P) (a b : ℕ) : ℕ → Landmark P :=
  Function.update (Function.update f a (f b)) b (f a)

/-- `swap` (Landmark 30-37). -/
def swap (s : St D P) (a b : ℕ) : St D P := if a ≠ b then { s with lm := exchange s.lm a b } else s

/-- `operator=` (Landmark 21-25): a copy is made and exchanged with the landmark. -/
def assign (s : St D P) (a b : ℕ) : St D P := { s with lm := Function.update s.lm a (copyOf (s.lm b)) }

/-- A change of one landmark. -/
def St.at (s : St D P) (a : ℕ) (f : Landmark P → Landmark P) : St D P := { s with lm := Function.update s.lm a (f (s.lm a)) }

/-- `setDescriptor` (Landmark 49-51): a clone of the argument. -/
def setDescriptor (s : St D P) (a : ℕ) (d : D) : St D P :=
  { (s.at a fun l => { l with desc := some s.next }) with heap := Function.update s.heap s.next d, next := s.next + 1 }

/-- `fromKeypoint` (Landmark 133-138).  The check that the landmark is not null is one of debug builds. -/
def fromKeypoint (s : St D P) (a frame : ℕ) (k : Keypoint P) : Out (St D P) :=
  match k.landmark with
  | some p => .ok (s.at a fun _ => ⟨k.desc, p, k.lid, frame⟩)
  | none => .ub

/-- `fromTransformedKeypoint` (Landmark 140-151): what it answers and what it leaves. -/
def fromTransformedKeypoint (s : St D P) (a frame : ℕ) (k : Keypoint P) (T : P → P) : Out Unit × St D P :=
  let s := s.at a fun l => { l with frame := frame, desc := k.desc }
  match k.landmark with
  | none => (.raise, s)
  | some p => (.ok (), s.at a fun l => { l with ph := T p, lid := k.lid })

/-- What a program does; `write` writes through `descriptorPtr` (Landmark 45-47), if it is not null. -/
inductive Op (D P : Type)
  | assign (a b : ℕ)
  | swap (a b : ℕ)
  | setDescriptor (a : ℕ) (d : D)
  | setDescriptorPtr (a : ℕ) (p : Option ℕ)
  | setPoint (a : ℕ) (p : P)
  | setLandmarkId (a i : ℕ)
  | setFrameId (a i : ℕ)
  | fromTransformed (a frame : ℕ) (k : Keypoint P) (T : P → P)
  | write (a : ℕ) (d : D)

/-- One call; an exception leaves the program running. -/
def step (s : St D P) : Op D P → St D P
  | .assign a b => assign s a b
  | .swap a b => swap s a b
  | .setDescriptor a d => setDescriptor s a d
  | .setDescriptorPtr a p => s.at a fun l => { l with desc := p }
  | .setPoint a p => s.at a fun l => { l with ph := p }
  | .setLandmarkId a i => s.at a fun l => { l with lid := i }
  | .setFrameId a i => s.at a fun l => { l with frame := i }
  | .fromTransformed a f k T => (fromTransformedKeypoint s a f k T).2
  | .write a d => match (s.lm a).desc with
    | some p => { s with heap := Function.update s.heap p d }
    | none => s

def run (s : St D P) (ops : List (Op D P)) : St D P := ops.foldl step s

/-! ## Specification -/

/-- What is seen of a landmark: the value of its descriptor, its point and numbers. -/
def seen (s : St D P) (a : ℕ) : Option D × P × ℕ × ℕ :=
  ((s.lm a).desc.map s.heap, (s.lm a).ph, (s.lm a).lid, (s.lm a).frame)

/-- The landmarks a call is made on. -/
def Op.on : Op D P → List ℕ
  | .assign a _ => [a]
  | .swap a b => [a, b]
  | .setDescriptor a _ | .setDescriptorPtr a _ | .setPoint a _ | .setLandmarkId a _ | .setFrameId a _
  | .fromTransformed a _ _ _ | .write a _ => [a]

/-- A call that writes through a pointer. -/
def Op.writes : Op D P → Bool
  | .write _ _ => true
  | _ => false

/-- All descriptors are there. -/
def St.Good (s : St D P) : Prop := ∀ a p, (s.lm a).desc = some p → p < s.next

/-- A call that is given a descriptor that is there. -/
def Op.Good (n : ℕ) : Op D P → Prop
  | .setDescriptorPtr _ p => ∀ q, p = some q → q < n
  | .fromTransformed _ _ k _ => ∀ q, k.desc = some q → q < n
  | _ => True

end Kalibr.Lm
