import Verif.MatArchive.Model

/-! # Specification vocabulary for the matrix archive -/

namespace Kalibr.MatArchive

/-- A letter of the ASCII alphabet. -/
def Letter (c : Nat) : Prop :=
  ('A'.toNat ≤ c ∧ c ≤ 'Z'.toNat) ∨ ('a'.toNat ≤ c ∧ c ≤ 'z'.toNat)

def Digit (c : Nat) : Prop := '0'.toNat ≤ c ∧ c ≤ '9'.toNat

/-- 1 to 32 characters, first a letter, then letters, digits and underscores. -/
def Legal (n : Name) : Prop :=
  1 ≤ n.length ∧ n.length ≤ 32 ∧ (∃ c, n.head? = some c ∧ Letter c) ∧
    ∀ c ∈ n, Letter c ∨ Digit c ∨ c = '_'.toNat

/-- What the user stored under a name. -/
inductive Value where
  | matrix (m : Mat)
  | string (v : List Nat)

open Classical in
/-- What a call leaves under the name `n`, given what was there before. -/
noncomputable def effect (n : Name) (before : Option Value) : Op → Option Value
  | .setScalar k x => if k = n ∧ Legal k then some (.matrix ⟨1, 1, [x]⟩) else before
  | .setString k v => if k = n ∧ Legal k then some (.string v) else before
  | .setMatrix k m => if k = n ∧ Legal k then some (.matrix m) else before
  | .setVector k m => if k = n ∧ Legal k ∧ m.cols = 1 then some (.matrix m) else before
  | .createMatrix k m overwrite =>
    match before with
    | some (.matrix old) => if k = n ∧ overwrite = true then some (.matrix m) else some (.matrix old)
    | b => if k = n then some (.matrix m) else b
  | .clear => none
  | .clearName k => if k = n then none else before

/-- The most recent value of a name, if any. -/
noncomputable def last (n : Name) (ops : List Op) : Option Value := ops.foldl (effect n) none

/-- A call that stores a string under `n`. -/
def Op.StoresString (n : Name) : Op → Prop
  | .setString k _ => k = n
  | _ => False

/-- A call that stores a number, a vector or a created matrix under `n`, or clears `n`. -/
def Op.LeavesString (n : Name) : Op → Prop
  | .setScalar k _ => k = n
  | .setVector k _ => k = n
  | .createMatrix k _ _ => k = n
  | .clearName k => k = n
  | _ => False

end Kalibr.MatArchive
