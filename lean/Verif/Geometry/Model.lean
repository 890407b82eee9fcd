import Verif.Reproj.Model

/-! Model for C107: `CameraGeometry<P, S, M>`, which puts the parameters of a projection, a distortion and a shutter into
one vector.

`aslam_cv/aslam_cameras/include/aslam_cameras/cameras/implementation/CameraGeometry.hpp`; `impl/` stands for that
directory, `src/` for `aslam_cv/aslam_cameras/src/`. -/

namespace Kalibr.Geometry

open Kalibr.Camera Kalibr.Reproj

/-! ## Matrices -/

/-- An `Eigen::MatrixXd`: columns one after another, in one block of memory. -/
structure Dyn where
  rows : ℕ
  cols : ℕ
  data : ℕ → ℝ

/-- The coefficient `(i, j)`. -/
def Dyn.coeff (A : Dyn) (i j : ℕ) : ℝ := A.data (i + A.rows * j)

/-- `Eigen::MatrixXd::Zero(rows, cols)`. -/
def Dyn.zero (rows cols : ℕ) : Dyn := ⟨rows, cols, fun _ => 0⟩

/-- `A.block(r, c, B.rows(), B.cols()) = B`, compiled without assertions (`NDEBUG`, as in a release build; with them a
block that is not inside the matrix stops the program).  Coefficient `(i, j)` of `B` goes to the place of `(r + i, c + j)`;
a place beyond the memory of the matrix is undefined behaviour.  For blocks of no more rows than the matrix, the only
ones that occur. -/
def Dyn.setBlock (A : Dyn) (r c : ℕ) (B : Dyn) : Out Dyn :=
  let base := r + A.rows * c
  if B.rows = 0 ∨ B.cols = 0 then Out.ok A
  else if base + (B.rows - 1) + A.rows * (B.cols - 1) < A.rows * A.cols then
    .ok ⟨A.rows, A.cols, fun o =>
      if base ≤ o ∧ (o - base) % A.rows < B.rows ∧ (o - base) / A.rows < B.cols then
        B.coeff ((o - base) % A.rows) ((o - base) / A.rows)
      else A.data o⟩
  else .ub

/-- `A.block(r, c, m, n)` as a new matrix, under the same conditions. -/
def Dyn.block (A : Dyn) (r c m n : ℕ) : Out Dyn :=
  if m = 0 ∨ n = 0 then .ok ⟨m, n, fun _ => 0⟩
  else if (r + A.rows * c) + (m - 1) + A.rows * (n - 1) < A.rows * A.cols then
    .ok ⟨m, n, fun o => A.coeff (r + o % m) (c + o / m)⟩
  else .ub

/-- A matrix of known size as a dynamic one. -/
def Dyn.of {m n : ℕ} (M : Matrix (Fin m) (Fin n) ℝ) : Dyn :=
  ⟨m, n, fun o => if h : 0 < m ∧ o / m < n then M ⟨o % m, Nat.mod_lt _ h.1⟩ ⟨o / m, h.2⟩ else 0⟩

/-! ## Cameras -/

variable {C : Type} {ni nd : ℕ}

/-- The members of a `CameraGeometry`: its projection with its distortion, and the line delay of its shutter (not
used if the shutter is a `GlobalShutter`). -/
structure Geo (C : Type) where
  cam : C
  lineDelay : ℝ

/-- `minimalDimensions` of a shutter: src/RollingShutter.cpp:32-34, src/GlobalShutter.cpp:22-24.  `rs` tells which class
the shutter is of. -/
def shutterDims (rs : Bool) : ℕ := if rs then 1 else 0

/-- impl/CameraGeometry.hpp:573-590, minimalDimensions(estimateProjection, estimateDistortion, estimateShutter). -/
def minimalDimensions (ni nd : ℕ) (rs : Bool) (a : Active) : ℕ :=
  let dim := 0
  let dim := if a.projection then dim + ni else dim
  let dim := if a.distortion then dim + nd else dim
  let dim := if a.shutter then dim + shutterDims rs else dim
  dim

/-- `update` of a shutter: src/RollingShutter.cpp:28-30, src/GlobalShutter.cpp:18-20. -/
def shutterUpdate (rs : Bool) (lineDelay : ℝ) (v : ℕ → ℝ) : ℝ := if rs then lineDelay + v 0 else lineDelay

/-- impl/CameraGeometry.hpp:552-570, update(v, …).  The pointer is a function from offsets to numbers. -/
noncomputable def Geo.update (K : CamClass C ni nd) (rs : Bool) (g : Geo C) (v : ℕ → ℝ) (a : Active) : Out (Geo C) := do
  let (c, v) := if a.projection then (K.updateI g.cam fun i => v i, fun o => v (o + ni)) else (g.cam, v)
  let (c, v) ← if a.distortion then do
      let c ← K.updateD c fun i => v i
      pure (c, fun o => v (o + nd))
    else pure (c, v)
  pure ⟨c, if a.shutter then shutterUpdate rs g.lineDelay v else g.lineDelay⟩

/-- A Jacobian that was not written is an empty matrix, which cannot be assigned to a block. -/
def written {n : ℕ} (J : Option (Matrix (Fin 2) (Fin n) ℝ)) : Out Dyn :=
  match J with
  | none => .ub
  | some J => .ok (.of J)

/-- impl/CameraGeometry.hpp:701-734, homogeneousToKeypointIntrinsicsJacobian(p, outJi, …). -/
noncomputable def Geo.homogeneousIntrinsicsJacobian (K : CamClass C ni nd) (rs : Bool) (g : Geo C) (p : V4) (a : Active) :
    Out Dyn := do
  let out := Dyn.zero 2 (minimalDimensions ni nd rs a)
  let col := 0
  let (out, col) ← if a.projection then do
      let J ← written (K.intrinsicsHJ g.cam p)
      let out ← out.setBlock 0 col J
      pure (out, col + ni)
    else pure (out, col)
  let (out, _) ← if a.distortion then do
      let J ← written (K.distortionHJ g.cam p)
      let out ← out.setBlock 0 col J
      pure (out, col + nd)
    else pure (out, col)
  pure out

/-- What is used of a camera class for Euclidean points. -/
structure EucClass (C : Type) (ni nd : ℕ) where
  /-- `euclideanToKeypoint(p, k)`: `none` if the keypoint was not written. -/
  project : C → V3 → Option V2
  /-- `euclideanToKeypointIntrinsicsJacobian` of the projection. -/
  intrinsicsJ : C → V3 → Option (Matrix (Fin 2) (Fin ni) ℝ)
  /-- `euclideanToKeypointDistortionJacobian` of the projection. -/
  distortionJ : C → V3 → Option (Matrix (Fin 2) (Fin nd) ℝ)

/-- impl/PinholeProjection.hpp. -/
noncomputable def pinholeE {n : ℕ} (F : Family n) : EucClass (Cam (Frame n) n) 4 n where
  project c p := (Pinhole.project (c.frame F) p).1
  intrinsicsJ c p := some (Pinhole.intrinsicsJ (c.frame F) p)
  distortionJ c p := Pinhole.distortionJ (c.frame F) p

/-- impl/OmniProjection.hpp. -/
noncomputable def omniE {n : ℕ} (F : Family n) : EucClass (Cam (Omni n) n) 5 n where
  project c p := ((c.omni F).project p).1
  intrinsicsJ c p := (c.omni F).intrinsicsJ p
  distortionJ c p := (c.omni F).distortionJ p

/-- impl/ExtendedUnifiedProjection.hpp. -/
noncomputable def eucmE : EucClass (EUCM 0) 6 0 where
  project c p := (c.project p).1
  intrinsicsJ c p := some (c.intrinsicsJ p)
  distortionJ _ _ := some (Matrix.of fun _ j => j.elim0)

/-- impl/DoubleSphereProjection.hpp. -/
noncomputable def dsE : EucClass (DS 0) 6 0 where
  project c p := (c.project p).1
  intrinsicsJ c p := some (c.intrinsicsJ p)
  distortionJ _ _ := some (Matrix.of fun _ j => j.elim0)

/-- impl/CameraGeometry.hpp:664-698, euclideanToKeypointIntrinsicsJacobian(p, outJi, …).  The blocks start at row `col`. -/
noncomputable def Geo.euclideanIntrinsicsJacobian (E : EucClass C ni nd) (rs : Bool) (g : Geo C) (p : V3) (a : Active) :
    Out Dyn := do
  let out := Dyn.zero 2 (minimalDimensions ni nd rs a)
  let col := 0
  let (out, col) ← if a.projection then do
      let J ← written (E.intrinsicsJ g.cam p)
      let out ← out.setBlock col 0 J
      pure (out, col + ni)
    else pure (out, col)
  let (out, _) ← if a.distortion then do
      let J ← written (E.distortionJ g.cam p)
      let out ← out.setBlock col 0 J
      pure (out, col + nd)
    else pure (out, col)
  pure out

/-- `temporalOffset` of a shutter in seconds, before it is made a `Duration`: include/aslam_cameras/cameras/
RollingShutter.hpp:38-41, GlobalShutter.hpp:32-35. -/
def Geo.temporalOffset (rs : Bool) (g : Geo C) (k : V2) : ℝ := if rs then g.lineDelay * k 1 else 0

/-- impl/CameraGeometry.hpp:737-762, temporalOffsetIntrinsicsJacobian(keypoint, outJi, …), with
RollingShutter.hpp:82-90 and GlobalShutter.hpp:38-46, which resizes a block of no columns (no effect without
assertions). -/
def temporalOffsetJacobian (ni nd : ℕ) (rs : Bool) (k : V2) (a : Active) : Out Dyn :=
  let out := Dyn.zero 1 (minimalDimensions ni nd rs a)
  let col := 0
  let col := if a.projection then col + ni else col
  let col := if a.distortion then col + nd else col
  if a.shutter ∧ rs then out.setBlock 0 col ⟨1, 1, fun _ => k 1⟩ else .ok out

/-! ## Parameters -/

/-- The parameters of the parts of a camera. -/
structure ParClass (C : Type) (ni nd : ℕ) where
  /-- `getParameters` of the projection. -/
  getI : C → Fin ni → ℝ
  /-- `setParameters` of the projection. -/
  setI : C → (Fin ni → ℝ) → C
  /-- `getParameters` of the distortion. -/
  getD : C → Fin nd → ℝ
  /-- `setParameters` of the distortion. -/
  setD : C → (Fin nd → ℝ) → Out C

/-- `setParameters` of a distortion: src/RadialTangentialDistortion.cpp:57-62, src/EquidistantDistortion.cpp:54-59,
src/FovDistortion.cpp:38-41, src/NoDistortion.cpp:23-24. -/
noncomputable def setDistortion {P : Type} {n : ℕ} (F : Family n) (c : Cam P n) (k : Fin n → ℝ) : Out (Cam P n) :=
  open Classical in if F.valid k then .ok { c with k := k } else .raise

/-- impl/PinholeProjection.hpp:521-537. -/
noncomputable def pinholeP {n : ℕ} (F : Family n) : ParClass (Cam (Frame n) n) 4 n where
  getI c := ![c.proj.fu, c.proj.fv, c.proj.cu, c.proj.cv]
  setI c p := { c with proj := { c.proj with fu := p 0, fv := p 1, cu := p 2, cv := p 3 } }
  getD c := c.k
  setD := setDistortion F

/-- impl/OmniProjection.hpp:653-669. -/
noncomputable def omniP {n : ℕ} (F : Family n) : ParClass (Cam (Omni n) n) 5 n where
  getI c := ![c.proj.xi, c.proj.fu, c.proj.fv, c.proj.cu, c.proj.cv]
  setI c p := { c with proj := { c.proj with xi := p 0, fu := p 1, fv := p 2, cu := p 3, cv := p 4 } }
  getD c := c.k
  setD := setDistortion F

/-- impl/ExtendedUnifiedProjection.hpp:678-695. -/
noncomputable def eucmP : ParClass (EUCM 0) 6 0 where
  getI c := ![c.alpha, c.beta, c.fu, c.fv, c.cu, c.cv]
  setI c p := { c with alpha := p 0, beta := p 1, fu := p 2, fv := p 3, cu := p 4, cv := p 5 }
  getD _ := ![]
  setD c _ := .ok c

/-- impl/DoubleSphereProjection.hpp:727-744. -/
noncomputable def dsP : ParClass (DS 0) 6 0 where
  getI c := ![c.xi, c.alpha, c.fu, c.fv, c.cu, c.cv]
  setI c p := { c with xi := p 0, alpha := p 1, fu := p 2, fv := p 3, cu := p 4, cv := p 5 }
  getD _ := ![]
  setD c _ := .ok c

/-- `getParameters` of a part with `n` parameters: one column, or no columns if there are none. -/
def column {n : ℕ} (v : Fin n → ℝ) : Dyn :=
  ⟨n, if n = 0 then 0 else 1, fun o => if h : o < n then v ⟨o, h⟩ else 0⟩

/-- `getParameters` of a shutter: src/RollingShutter.cpp:36-39, src/GlobalShutter.cpp:26-28. -/
def shutterColumn (rs : Bool) (lineDelay : ℝ) : Dyn := if rs then ⟨1, 1, fun _ => lineDelay⟩ else ⟨0, 0, fun _ => 0⟩

/-- impl/CameraGeometry.hpp:593-633, getParameters(params, …). -/
def Geo.getParameters (Q : ParClass C ni nd) (rs : Bool) (g : Geo C) (a : Active) : Out Dyn := do
  let Pp := column (Q.getI g.cam)
  let Pd := column (Q.getD g.cam)
  let Ps := shutterColumn rs g.lineDelay
  let rows := 0
  let cols := 0
  let (rows, cols) := if a.projection then (rows + Pp.rows, max cols Pp.cols) else (rows, cols)
  let (rows, cols) := if a.distortion then (rows + Pd.rows, max cols Pd.cols) else (rows, cols)
  let (rows, cols) := if a.shutter then (rows + Ps.rows, max cols Ps.cols) else (rows, cols)
  let params := Dyn.zero rows cols
  let row := 0
  let (params, row) ← (if a.projection then (do
      let params ← params.setBlock row 0 Pp
      pure (params, row + Pp.rows)) else pure (params, row))
  let (params, row) ← (if a.distortion then (do
      let params ← params.setBlock row 0 Pd
      pure (params, row + Pd.rows)) else pure (params, row))
  if a.shutter then params.setBlock row 0 Ps else pure params

/-- impl/CameraGeometry.hpp:636-661, setParameters(params, …), with src/RollingShutter.cpp:41-47 and
src/GlobalShutter.cpp:30-32. -/
def Geo.setParameters (Q : ParClass C ni nd) (rs : Bool) (g : Geo C) (params : Dyn) (a : Active) : Out (Geo C) := do
  let row := 0
  let (c, row) ← (if a.projection then (do
      let P ← params.block row 0 ni (if ni = 0 then 0 else 1)
      pure (Q.setI g.cam fun i => P.coeff i 0, row + ni)) else pure (g.cam, row))
  let (c, row) ← (if a.distortion then (do
      let P ← params.block row 0 nd (if nd = 0 then 0 else 1)
      let c ← Q.setD c fun i => P.coeff i 0
      pure (c, row + nd)) else pure (c, row))
  let d ← (if a.shutter ∧ rs then (do
      let P ← params.block row 0 1 1
      pure (P.coeff 0 0)) else pure g.lineDelay)
  pure ⟨c, d⟩

/-! ## Updates that are refused -/

/-- src/FovDistortion.cpp:24-27, update: what the call does, and the parameter afterwards.  The parameter is assigned
before it is checked. -/
noncomputable def fovUpdate (w v : ℝ) : Out Unit × ℝ :=
  let w := w + v
  (open Classical in if |w| < 1 / 10 ^ 16 ∨ (1 / 2 ≤ w ∧ w ≤ 3 / 2) then .ok () else .raise, w)

end Kalibr.Geometry
