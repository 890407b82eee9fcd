import Verif.UnionFind.Model
import Mathlib.Logic.Relation
import Mathlib.Data.Set.Card

/-! # Specification for C13: what connected means -/

namespace Kalibr.UnionFind

/-- The pair `(a, b)` was connected by one of the calls. -/
def Connected (ops : List Op) (a b : Nat) : Prop := Op.connect a b ∈ ops

/-- `a` and `b` are linked by a chain of connected pairs, in either direction. -/
def Linked (ops : List Op) : Nat → Nat → Prop := Relation.EqvGen (Connected ops)

/-- The call mentions only existing elements. -/
def Op.InRange (n : Nat) : Op → Prop
  | .connect a b => a < n ∧ b < n
  | .representative a => a < n
  | .setSize a => a < n

end Kalibr.UnionFind
