import Verif.Common
import Verif.Kinematics.Quat

/-!
# Transformations of points in two and three dimensions

A model of `aslam_incremental_calibration/aslam_incremental_calibration/include/aslam_incremental_calibration/
geometry/Transformation3d.tpp` and `Transformation2d.tpp` over the real numbers.  An object has three matrices:
the one that transforms points, and the rotation and the translation it was made of.  Eigen leaves a matrix that is
not set uninitialised; such a member is `none` here, and reading it is undefined behaviour.  The stream functions
are not modelled.
-/

namespace Kalibr.Trafo

open Matrix Real Kin

/-- `Eigen::Vector2d` -/
abbrev V2 := Fin 2 → ℝ

/-! ## Transformation3d.tpp -/

/-- `Transformation<T, 3>`: its three members (Transformation3d.h:100-107). -/
structure T3 where
  T : Option M4
  R : Option M4
  M : Option M4

/-- The default constructor (Transformation3d.tpp:26-28). -/
def T3.new : T3 := ⟨none, none, none⟩

/-- The constructor from a matrix (Transformation3d.tpp:30-34). -/
def T3.ofMatrix (m : M4) : T3 := ⟨some m, none, none⟩

/-- `setTransformationMatrix` (Transformation3d.tpp:89-93). -/
def T3.setMatrix (x : T3) (m : M4) : T3 := { x with T := some m }

/-- The rotation `setTransformation` makes (Transformation3d.tpp:104-125). -/
noncomputable def rot3 (roll pitch yaw : ℝ) : M4 :=
  let sinRoll := sin roll
  let cosRoll := cos roll
  let sinPitch := sin pitch
  let cosPitch := cos pitch
  let sinYaw := sin yaw
  let cosYaw := cos yaw
  !![cosYaw * cosPitch, cosYaw * sinPitch * sinRoll - sinYaw * cosRoll, cosYaw * sinPitch * cosRoll + sinYaw * sinRoll, 0;
     sinYaw * cosPitch, sinYaw * sinPitch * sinRoll + cosYaw * cosRoll, sinYaw * sinPitch * cosRoll - cosYaw * sinRoll, 0;
     -sinPitch, cosPitch * sinRoll, cosPitch * cosRoll, 0;
     0, 0, 0, 1]

/-- The translation `setTransformation` makes (Transformation3d.tpp:126-141). -/
def trans3 (x y z : ℝ) : M4 :=
  !![1, 0, 0, x;
     0, 1, 0, y;
     0, 0, 1, z;
     0, 0, 0, 1]

/-- `setTransformation`, and the constructor that calls it (Transformation3d.tpp:36-40, 101-143). -/
noncomputable def T3.set (_ : T3) (x y z roll pitch yaw : ℝ) : T3 :=
  let R := rot3 roll pitch yaw
  let M := trans3 x y z
  ⟨some (M * R), some R, some M⟩

/-- `mTranslationMatrix(k, 3) = -mTranslationMatrix(k, 3)` for the first three rows
(Transformation3d.tpp:157-159). -/
def negLast3 (M : M4) : M4 := of fun i j => if j = 3 ∧ i ≠ 3 then -M i j else M i j

/-- `inverse` (Transformation3d.tpp:154-162). -/
def T3.inverse (x : T3) : Out T3 :=
  match x.R, x.M with
  | some R, some M =>
    let R := Rᵀ
    let M := negLast3 M
    .ok ⟨some (R * M), some R, some M⟩
  | _, _ => .ub

/-- `getInverse` (Transformation3d.tpp:145-148): the inverse of a copy. -/
def T3.getInverse (x : T3) : Out T3 := x.inverse

/-- `transform` and the call operator (Transformation3d.tpp:164-176). -/
def T3.transform (x : T3) (src : V3) : Out V3 :=
  match x.T with
  | some T => .ok fun i => (T.mulVec ![src 0, src 1, src 2, 1]) i.castSucc
  | none => .ub

/-! ## Transformation2d.tpp -/

/-- `Transformation<T, 2>` (Transformation2d.h:103-110). -/
structure T2 where
  T : Option M3
  R : Option M3
  M : Option M3

/-- The default constructor (Transformation2d.tpp:28-30). -/
def T2.new : T2 := ⟨none, none, none⟩

/-- The constructor from a matrix (Transformation2d.tpp:32-36). -/
def T2.ofMatrix (m : M3) : T2 := ⟨some m, none, none⟩

/-- The rotation `setTransformation` makes (Transformation2d.tpp:104-114). -/
noncomputable def rot2 (yaw : ℝ) : M3 :=
  let cosYaw := cos yaw
  let sinYaw := sin yaw
  !![cosYaw, -sinYaw, 0;
     sinYaw, cosYaw, 0;
     0, 0, 1]

/-- The translation `setTransformation` makes (Transformation2d.tpp:115-123). -/
def trans2 (x y : ℝ) : M3 :=
  !![1, 0, x;
     0, 1, y;
     0, 0, 1]

/-- `setTransformation`, and the constructor that calls it (Transformation2d.tpp:38-41, 102-125). -/
noncomputable def T2.set (_ : T2) (x y yaw : ℝ) : T2 :=
  let R := rot2 yaw
  let M := trans2 x y
  ⟨some (M * R), some R, some M⟩

/-- `mTranslationMatrix(k, 2) = -mTranslationMatrix(k, 2)` for the first two rows
(Transformation2d.tpp:153-154). -/
def negLast2 (M : M3) : M3 := of fun i j => if j = 2 ∧ i ≠ 2 then -M i j else M i j

/-- `inverse` (Transformation2d.tpp:150-157). -/
def T2.inverse (x : T2) : Out T2 :=
  match x.R, x.M with
  | some R, some M =>
    let R := Rᵀ
    let M := negLast2 M
    .ok ⟨some (R * M), some R, some M⟩
  | _, _ => .ub

/-- `getInverse` (Transformation2d.tpp:127-130). -/
def T2.getInverse (x : T2) : Out T2 := x.inverse

/-- `transform` and the call operator (Transformation2d.tpp:136-148). -/
def T2.transform (x : T2) (src : V2) : Out V2 :=
  match x.T with
  | some T => .ok fun i => (T.mulVec ![src 0, src 1, 1]) i.castSucc
  | none => .ub

/-! ## Specification -/

/-- A turn about the first axis. -/
noncomputable def turnX (a : ℝ) : M3 := !![1, 0, 0; 0, cos a, -sin a; 0, sin a, cos a]
/-- A turn about the second axis. -/
noncomputable def turnY (a : ℝ) : M3 := !![cos a, 0, sin a; 0, 1, 0; -sin a, 0, cos a]
/-- A turn about the third axis. -/
noncomputable def turnZ (a : ℝ) : M3 := !![cos a, -sin a, 0; sin a, cos a, 0; 0, 0, 1]
/-- Roll, then pitch, then yaw. -/
noncomputable def rpy (roll pitch yaw : ℝ) : M3 := turnZ yaw * turnY pitch * turnX roll
/-- A turn of the plane. -/
noncomputable def turn2 (a : ℝ) (p : V2) : V2 := ![cos a * p 0 - sin a * p 1, sin a * p 0 + cos a * p 1]

/-- What the object does with points, in three dimensions: `f` on every point. -/
def Does3 (x : T3) (f : V3 → V3) : Prop := ∀ p, x.transform p = .ok (f p)
/-- What the object does with points of the plane. -/
def Does2 (x : T2) (f : V2 → V2) : Prop := ∀ p, x.transform p = .ok (f p)

/-- `k` calls of `inverse`. -/
def inverses3 (x : T3) : ℕ → Out T3
  | 0 => .ok x
  | k + 1 => (inverses3 x k).bind T3.inverse

end Kalibr.Trafo
