import Verif.Batch.Model

/-!
# Specification of a batch problem

Only two facts: which group each variable was added to, and which error terms were added.
-/

namespace Kalibr.Batch

structure Spec where
  group : Nat → Option Nat
  term : Nat → Bool

def Spec.empty : Spec := ⟨fun _ => none, fun _ => false⟩

/-- What a call must answer (`none`: not determined by the two facts) and its effect. -/
def Spec.step {V : Type} (deps : Nat → List Nat) (a : Spec) : Op V → Option (Out Unit) × Spec
  | .addDV none _ => (some .raise, a)
  | .addDV (some dv) g =>
    if a.group dv = none then
      (some (.ok ()), { a with group := fun d => if d = dv then some g else a.group d })
    else (some .raise, a)
  | .addET none => (some .raise, a)
  | .addET (some et) =>
    if a.term et = false ∧ ∀ dv ∈ deps et, a.group dv ≠ none then
      (some (.ok ()), { a with term := fun e => if e = et then true else a.term e })
    else (some .raise, a)
  | .clear => (some (.ok ()), Spec.empty)
  | .save | .restore | .assign _ _ => (some (.ok ()), a)
  | .setOrdering _ | .permuteDV _ _ | .permuteET _ => (none, a)

def Spec.runFrom {V : Type} (deps : Nat → List Nat) (a : Spec) : List (Op V) → List (Option (Out Unit)) × Spec
  | [] => ([], a)
  | op :: ops =>
    let r := a.step deps op
    let t := runFrom deps r.2 ops
    (r.1 :: t.1, t.2)

def Spec.run {V : Type} (deps : Nat → List Nat) (ops : List (Op V)) := Spec.runFrom deps Spec.empty ops

/-- The answers given agree with those the specification determines. -/
def Agree : List (Out Unit) → List (Option (Out Unit)) → Prop
  | [], [] => True
  | o :: os, none :: ss => o = o ∧ Agree os ss
  | o :: os, some s :: ss => o = s ∧ Agree os ss
  | _, _ => False

end Kalibr.Batch
