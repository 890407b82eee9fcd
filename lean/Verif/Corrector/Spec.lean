import Verif.Corrector.Model

/-!
# Specification of clock correction

Independent of the hull: which samples are accepted, and the straight line through two samples.
-/

namespace Kalibr.Corrector

variable {K : Type} [Field K] [LinearOrder K]

/-- The samples that come later (in remote time) than the last accepted one. -/
def accepted (ss : List (Pt K)) : List (Pt K) :=
  ss.foldl (fun acc s =>
    match acc.getLast? with
    | none => acc ++ [s]
    | some a => if a.x < s.x then acc ++ [s] else acc) []

/-- The line through `a` and `b` at remote time `t`. -/
def lineAt (a b : Pt K) (t : K) : K := a.y + (b.y - a.y) / (b.x - a.x) * (t - a.x)

/-- Slope of the line through two points. -/
def slope (a b : Pt K) : K := (b.y - a.y) / (b.x - a.x)

end Kalibr.Corrector
