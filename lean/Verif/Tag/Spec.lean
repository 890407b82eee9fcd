import Verif.Tactics
import Mathlib.Algebra.Order.Group.Nat
import Mathlib.Data.Finset.Card
import Mathlib.Data.Finset.Range
import Mathlib.Data.Nat.Bitwise

/-!
# Specification vocabulary for tag codes

A pattern is the set of its black cells, as a Boolean function of the bit number.  Cells are numbered
as in `TagFamily.h`: bit `d*row + col` counted from the bottom right corner.
-/

namespace Kalibr.Tag

/-- The pattern after a quarter turn: the cell in row `i/d`, column `i%d` shows what was in row
`d-1-i%d`, column `i/d`. -/
def turn (d : Nat) (g : Nat → Bool) : Nat → Bool :=
  fun i => decide (i < d * d) && g (d * (d - 1 - i % d) + i / d)

/-- The pattern after `k` quarter turns. -/
def turns (d : Nat) : Nat → (Nat → Bool) → (Nat → Bool)
  | 0, g => g
  | k + 1, g => turn d (turns d k g)

/-- In how many cells two patterns differ. -/
def diff (g h : Nat → Bool) : Nat := ((Finset.range 64).filter fun i => g i ≠ h i).card

/-- The pattern of a word. -/
def pattern (w : Nat) : Nat → Bool := fun i => w.testBit i

end Kalibr.Tag
