import Verif.Optimizer.Model

/-!
# Specification vocabulary for the optimiser
-/

namespace Kalibr.Optimizer.Spec

/-- The ranges `[bases i, bases i + dims i)` follow one another without gap, starting at 0. -/
def Consecutive (bases : List Int) (dims : List Nat) : Prop :=
  bases.length = dims.length ∧
    ∀ (i : Nat) (b : Int), bases[i]? = some b → b = ((dims.take i).sum : Nat)

/-- Every position below the total is in exactly one range, and no range leaves the total. -/
def ExactCover (bases : List Int) (dims : List Nat) : Prop :=
  (∀ (i : Nat) (b : Int) (d : Nat), bases[i]? = some b → dims[i]? = some d → 0 ≤ b ∧ b + d ≤ (dims.sum : Nat)) ∧
    ∀ x : Nat, x < dims.sum →
      ∃! i : Nat, ∃ (b : Int) (d : Nat), bases[i]? = some b ∧ dims[i]? = some d ∧ b ≤ (x : Int) ∧ (x : Int) < b + d

/-- `seg` is the scaled piece of `dx` with `n` entries from position `base`. -/
def IsSegment {K : Type} [Mul K] (seg dx : List K) (base : Int) (n : Nat) (scaling : K) : Prop :=
  seg.length = n ∧ ∀ k, k < n → ∃ x, dx[(base + k).toNat]? = some x ∧ seg[k]? = some (x * scaling)

end Kalibr.Optimizer.Spec
