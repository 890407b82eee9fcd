import Verif.Common
import Mathlib.Data.Int.Notation
import Mathlib.Data.Nat.Notation

/-!
# Identifiers

A model of `sm::Id` (Schweizer-Messer/sm_common/include/sm_common/Id.hpp:19-172) and of the classes its macro makes, which
only add constructors.  `id_type` is `boost::uint64_t`.  The stream operator, `setRandom` and the hash are not modelled.
-/

namespace Kalibr.Ids

/-- One past the largest `boost::uint64_t`. -/
def top : ℕ := 18446744073709551616

/-- `sm::Id`: its only member (Id.hpp:169-170). -/
structure Ident where
  id : ℕ
deriving DecidableEq

/-- The conversion of an integer to `id_type`. -/
def toU64 (x : ℤ) : ℕ := (x % (top : ℤ)).toNat

/-- The constructor from a number (Id.hpp:71, 182). -/
def Ident.of (x : ℤ) : Ident := ⟨toU64 x⟩

/-- The default constructor (Id.hpp:74, 182). -/
def Ident.new : Ident := ⟨toU64 (-1)⟩

/-- `operator==` (Id.hpp:82-85). -/
def Ident.eq (a b : Ident) : Bool := b.id == a.id
/-- `operator!=` (Id.hpp:87-90). -/
def Ident.ne (a b : Ident) : Bool := b.id != a.id
/-- `operator<` (Id.hpp:92-95). -/
def Ident.lt (a b : Ident) : Bool := a.id < b.id
/-- `operator>` (Id.hpp:97-100). -/
def Ident.gt (a b : Ident) : Bool := a.id > b.id
/-- `operator<=` (Id.hpp:102-105). -/
def Ident.le (a b : Ident) : Bool := a.id ≤ b.id
/-- `operator>=` (Id.hpp:107-110). -/
def Ident.ge (a b : Ident) : Bool := a.id ≥ b.id

/-- `++_id` on an unsigned number of 64 bits. -/
def inc (x : ℕ) : ℕ := if x + 1 = top then 0 else x + 1

/-- The postincrement: the result and the object after it (Id.hpp:118-123). -/
def Ident.post (a : Ident) : Ident × Ident := (⟨a.id⟩, ⟨inc a.id⟩)

/-- The preincrement: the result is the object (Id.hpp:126-130). -/
def Ident.pre (a : Ident) : Ident := ⟨inc a.id⟩

/-- `isSet` (Id.hpp:138-141). -/
def Ident.isSet (a : Ident) : Bool := a.id != toU64 (-1)

/-- `clear` (Id.hpp:148-151). -/
def Ident.clear (_ : Ident) : Ident := ⟨toU64 (-1)⟩

/-- The identifiers a counter gives by `n` postincrements, and the counter after them. -/
def give (a : Ident) : ℕ → List Ident × Ident
  | 0 => ([], a)
  | n + 1 => let (l, b) := give a n; (l ++ [b.post.1], b.post.2)

/-- An identifier the class can hold. -/
def Ident.Valid (a : Ident) : Prop := a.id < top

end Kalibr.Ids
