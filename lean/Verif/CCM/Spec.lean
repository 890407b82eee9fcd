import Verif.CCM.Model
import Verif.Jacobian.Spec

/-!
# What a compressed column matrix stands for

`Is m M` says that the object `m` has the size of the dense matrix `M` and that its arrays are
well-formed compressed-column arrays holding exactly `M` (`CCS.Lists`).  The dense meaning of each
operation is written here: matrices side by side, diagonal matrices, transposed Jacobians.
-/

namespace Kalibr.CCM

open Jacobian

variable {D K : Type}

/-- The object holds the matrix `M`. -/
structure Is [Zero K] (m : CCM K) (M : Mat K) : Prop where
  lists : m.s.Lists M
  rows : m.rows = M.rows
  cols : m.cols = M.cols

/-- `[A B]`. -/
def hcat (A B : Mat K) : Mat K :=
  ⟨A.rows, A.cols + B.cols, fun i j => if j < A.cols then A.get i j else B.get i (j - A.cols)⟩

/-- The square matrix with diagonal `d`. -/
def diagMat [Zero K] (d : List K) : Mat K :=
  ⟨d.length, d.length, fun i j => if i = j then d.getD i 0 else 0⟩

/-- The transposed Jacobian of an error term: row `x` of column `c` is the derivative of error `c` with
respect to coordinate `x` of the increment, where variable `d` has the coordinates from `cb d` on. -/
def jacT [AddMonoid K] (env : Env D K) (cb : D → Nat) (rows : Nat) (jc : Container D K) : Mat K :=
  ⟨rows, jc.rows, fun x c => (jc.map.map fun p =>
    if cb p.1 ≤ x ∧ x < cb p.1 + env.dim p.1 then p.2.get c (x - cb p.1) else 0).sum⟩

/-- The coordinates of the active variables: one variable after the other in the order of the block
index, and inside the matrix. -/
structure Layout (env : Env D K) (cb : D → Nat) (rows : Nat) : Prop where
  order : ∀ d d', env.active d = true → env.active d' = true → env.blockIndex d < env.blockIndex d' →
    cb d + env.dim d ≤ cb d'
  inside : ∀ d, env.active d = true → cb d + env.dim d ≤ rows

/-! ## Histories -/

/-- The operations on a matrix after its initialisation. -/
inductive Op (D K : Type)
  | append (jc : Container D K)
  | push (d : List K)
  | update (d : List K)
  | pop

/-- What the user has in mind: a matrix, and perhaps a diagonal next to it. -/
structure Abs (K : Type) where
  M : Mat K
  d : Option (List K)

/-- The matrix with the diagonal. -/
def Abs.full [Zero K] (a : Abs K) : Mat K :=
  match a.d with
  | none => a.M
  | some d => hcat a.M (diagMat d)

/-- What an operation is meant to do. -/
def Abs.step [AddMonoid K] (env : Env D K) (cb : D → Nat) (a : Abs K) : Op D K → Out (Abs K)
  | .append jc => if a.d.isSome then .raise else .ok ⟨hcat a.M (jacT env cb a.M.rows jc), none⟩
  | .push d => if a.d.isSome ∨ d.length ≠ a.M.rows then .raise else .ok ⟨a.M, some d⟩
  | .update d => if a.d.isSome then .ok ⟨a.M, some d⟩ else .raise
  | .pop => if a.d.isSome then .ok ⟨a.M, none⟩ else .raise

/-- The same operations on the object. -/
def CCM.step [Zero K] (env : Env D K) (cb : D → Nat) (m : CCM K) : Op D K → Out (CCM K)
  | .append jc => m.appendJacobians env cb jc
  | .push d => m.pushDiagonal d
  | .update d => m.updateDiagonal d
  | .pop => m.popDiagonal

/-- A sequence of operations, up to the first that raises. -/
def steps {S O : Type} (f : S → O → Out S) : S → List O → Out S
  | s, [] => .ok s
  | s, o :: os => (f s o).bind fun s => steps f s os

/-- The demands on arguments: containers belong to the variables of the problem, and an updated diagonal
has the size of the matrix. -/
def Op.Good (env : Env D K) (rows : Nat) : Op D K → Prop
  | .append jc => Ordered env jc ∧ Fits env jc
  | .update d => d.length = rows
  | _ => True

/-- The object and the intention agree. -/
def Agree [Zero K] (m : CCM K) (a : Abs K) : Prop :=
  Is m a.full ∧ m.rows = a.M.rows ∧ m.diag = a.d.isSome ∧ ∀ d, a.d = some d → d.length = a.M.rows

end Kalibr.CCM
