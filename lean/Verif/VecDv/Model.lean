import Verif.Common
import Mathlib.Data.Real.Basic

/-!
# Vectors as design variables

A model of `VectorDesignVariable` (aslam_incremental_calibration/aslam_incremental_calibration/include/
aslam_incremental_calibration/data-structures/VectorDesignVariable.tpp) over the real numbers, for a size that is fixed or
dynamic.  An update of another size than the vector fails an assertion of Eigen or reads beyond it: it is undefined here.  The
stream functions are not modelled.
-/

namespace Kalibr.VecDv

/-- `VectorDesignVariable<M>` (VectorDesignVariable.h:120-125). -/
structure Dv where
  value : List ℝ
  old : List ℝ

/-- The constructor (VectorDesignVariable.tpp:27-31). -/
def Dv.new (v : List ℝ) : Dv := ⟨v, v⟩

/-- `getValue`, and `getParameters`, which gives one column (VectorDesignVariable.tpp:80-84, 117-121). -/
def Dv.get (d : Dv) : List ℝ := d.value

/-- `setValue` (VectorDesignVariable.tpp:86-90).  If the size is fixed, a vector of another size is not accepted by the
compiler; it is a dynamic size here, which takes any. -/
def Dv.set (d : Dv) (v : List ℝ) : Dv := { value := v, old := d.value }

/-- `minimalDimensions` (VectorDesignVariable.tpp:96-99). -/
def Dv.dim (d : Dv) : ℕ := d.value.length

/-- `update` (VectorDesignVariable.tpp:101-107). -/
noncomputable def Dv.update (d : Dv) (dp : List ℝ) : Out Dv :=
  if dp.length = d.value.length then .ok { value := List.zipWith (· + ·) d.value dp, old := d.value } else .ub

/-- `revertUpdate` (VectorDesignVariable.tpp:109-112). -/
def Dv.revert (d : Dv) : Dv := { d with value := d.old }

/-- `setParameters` with a matrix of `cols` columns, of which the first is `v` (VectorDesignVariable.tpp:123-132). -/
def Dv.setParameters (d : Dv) (v : List ℝ) (cols : ℕ) : Out Dv :=
  if cols ≠ 1 ∨ v.length ≠ d.value.length then .raise else .ok { value := v, old := d.value }

/-! ## Specification -/

/-- The calls that change the variable. -/
inductive Call
  | set (v : List ℝ)
  | update (dp : List ℝ)
  | setParameters (v : List ℝ) (cols : ℕ)
  | revert

/-- One call; an exception leaves the variable. -/
noncomputable def call (d : Dv) : Call → Out Dv
  | .set v => .ok (d.set v)
  | .update dp => d.update dp
  | .setParameters v c =>
    match d.setParameters v c with
    | .raise => .ok d
    | r => r
  | .revert => .ok d.revert

/-- A history of calls. -/
noncomputable def run (d : Dv) : List Call → Out Dv
  | [] => .ok d
  | c :: cs => (call d c).bind fun d => run d cs

/-- The value before the call `c`, and the one after it, as a user thinks of them: the sum, or the value that was set. -/
def Means (before after : List ℝ) : Call → Prop
  | .set v => after = v
  | .update dp => dp.length = before.length ∧ after.length = before.length ∧ ∀ i, after.getD i 0 = before.getD i 0 + dp.getD i 0
  | .setParameters v c => (c = 1 ∧ v.length = before.length → after = v) ∧ (¬ (c = 1 ∧ v.length = before.length) → after = before)
  | .revert => True

/-- The call changes the variable, and is no revert. -/
def Changes (d : Dv) : Call → Prop
  | .set _ => True
  | .update _ => True
  | .setParameters v c => c = 1 ∧ v.length = d.get.length
  | .revert => False

end Kalibr.VecDv
