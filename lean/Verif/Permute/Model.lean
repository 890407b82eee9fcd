import Verif.Common
import Verif.Tactics

/-!
# Model of `aslam::calibration::permute`

Source: `/repo/aslam_incremental_calibration/aslam_incremental_calibration/include/`
`aslam_incremental_calibration/algorithms/permute.tpp` 31-48.
-/

namespace Kalibr.Permute

/-- `permutation[k]`; every call below is in range, so the default is never used. -/
def at' (p : List Nat) (k : Nat) : Nat := p.getD k k

/-- `while (k < i) k = permutation[k];` (42-43): `none` when `fuel` tests do not end the loop. -/
def chase (p : List Nat) (i : Nat) : Nat → Nat → Option Nat
  | 0, _ => none
  | fuel + 1, k => if k < i then chase p i fuel (at' p k) else some k

/-- `std::swap(container[i], container[k])`. -/
def swap {α : Type} (c : List α) (i k : Nat) : List α :=
  match c[i]?, c[k]? with
  | some a, some b => (c.set i b).set k a
  | _, _ => c

/-- The `for` loop (36-47) with `n` iterations left; the container as left behind, also when the
call raises.  `none`: the inner loop did not end. -/
def loop {α : Type} (fuel : Nat) (p : List Nat) : Nat → Nat → List α → Option (Out Unit × List α)
  | 0, _, c => some (.ok (), c)
  | n + 1, i, c =>
    if c.length ≤ at' p i then some (.raise, c) else
    match chase p i fuel (at' p i) with
    | none => none
    | some k =>
      if c.length ≤ k then some (.ub, c)              -- `container[k]` out of range
      else loop fuel p n (i + 1) (if i < k then swap c i k else c)

/-- `permute(container, permutation)` (31-48). -/
def permute {α : Type} (fuel : Nat) (p : List Nat) (c : List α) : Option (Out Unit × List α) :=
  if c.length ≠ p.length then some (.raise, c) else loop fuel p c.length 0 c

end Kalibr.Permute
