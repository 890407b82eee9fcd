import Verif.Common
import Mathlib.Logic.Function.Basic

/-!
# Model of `AprilTags::UnionFindSimple`

Source: `/repo/aslam_offline_calibration/aslam_apriltag2/src/UnionFindSimple.cc` and
`include/aslam_apriltag2/UnionFindSimple.h`.

The vector `data` of length `n` is a pair of functions `id`, `size` used on indices below `n`; an
access at an index `≥ n` is undefined behaviour.  `int` overflow of sizes is impossible because a
size never exceeds `n` (proved), the length of a `std::vector` indexed by `int`.
-/

namespace Kalibr.UnionFind

/-- `std::vector<Data> data` (UnionFindSimple.h:10-14, 36). -/
structure UF where
  n : Nat
  id : Nat → Nat
  size : Nat → Nat

/-- Constructor and `init` (UnionFindSimple.h:17-19, UnionFindSimple.cc:46-52). -/
def init (n : Nat) : UF := ⟨n, fun i => i, fun _ => 1⟩

/-- `getRepresentative` (UnionFindSimple.cc:6-18), recursive with path compression.  The first
argument bounds the recursion depth: running out of it stands for unbounded recursion (stack
overflow) and is reported as undefined behaviour; the theorems show it never happens. -/
def getRepAux : Nat → UF → Nat → Out (Nat × UF)
  | 0, _, _ => .ub
  | fuel + 1, s, x =>
    if x < s.n then
      if s.id x = x then .ok (x, s)
      else do
        let p ← getRepAux fuel s (s.id x)
        return (p.1, { p.2 with id := Function.update p.2.id x p.1 })
    else .ub

/-- `getRepresentative(thisId)`; a parent chain without repetition visits at most `n` nodes. -/
def getRep (s : UF) (x : Nat) : Out (Nat × UF) := getRepAux s.n s x

/-- `getSetSize` (UnionFindSimple.h:21). -/
def getSetSize (s : UF) (x : Nat) : Out (Nat × UF) := do
  let p ← getRep s x
  return (p.2.size p.1, p.2)

/-- `connectNodes` (UnionFindSimple.cc:25-44). -/
def connect (s : UF) (a b : Nat) : Out (Nat × UF) := do
  let p ← getRep s a
  let q ← getRep p.2 b
  let aRoot := p.1
  let bRoot := q.1
  let s := q.2
  if aRoot = bRoot then return (aRoot, s)
  else
    let asz := s.size aRoot
    let bsz := s.size bRoot
    if asz > bsz then
      return (aRoot, { s with id := Function.update s.id bRoot aRoot,
                              size := Function.update s.size aRoot (asz + bsz) })
    else
      return (bRoot, { s with id := Function.update s.id aRoot bRoot,
                              size := Function.update s.size bRoot (bsz + asz) })

/-- A call of the public interface. -/
inductive Op
  | connect (a b : Nat)
  | representative (a : Nat)
  | setSize (a : Nat)
  deriving DecidableEq, Repr

/-- One call: its return value and the new state. -/
def step (s : UF) : Op → Out (Nat × UF)
  | .connect a b => connect s a b
  | .representative a => getRep s a
  | .setSize a => getSetSize s a

/-- A history of calls. -/
def run (s : UF) : List Op → Out UF
  | [] => .ok s
  | op :: ops => do
    let p ← step s op
    run p.2 ops

end Kalibr.UnionFind
