import Verif.Common
import Verif.Mat

/-!
# Model of `aslam::backend::JacobianContainer`

Source: `/repo/aslam_optimizer/aslam_backend/src/JacobianContainer.cpp` and the template `add` in
`include/aslam_backend/backend/JacobianContainer.hpp`.

The `std::map` ordered by block index is a list of (design variable, block) pairs in increasing order
of block index.  Block indices are those of the moment and do not change while the container is used.
Two variables with the same block index are one key of the map, as in a release build.
Simplifications: exact arithmetic; a container is not added to itself.
-/

namespace Kalibr.Jacobian

variable {D K : Type}

/-- What the container reads of the design variables. -/
structure Env (D K : Type) where
  blockIndex : D → Int
  dim : D → Nat
  active : D → Bool
  scaling : D → K

/-- A container: `_rows` and `_jacobianMap`. -/
structure Container (D K : Type) where
  rows : Nat
  map : List (D × Mat K)

/-- Constructor. -/
def Container.new (rows : Nat) : Container D K := ⟨rows, []⟩

variable (env : Env D K)

/-- `std::map::find`: the keys are compared by block index. -/
def find (m : List (D × Mat K)) (d : D) : Option (Mat K) :=
  (m.find? fun p => env.blockIndex p.1 = env.blockIndex d).map (·.2)

/-- `std::map::insert`: keeps the map as it is if the key is present. -/
def insert (p : D × Mat K) : List (D × Mat K) → List (D × Mat K)
  | [] => [p]
  | q :: qs =>
    if env.blockIndex p.1 < env.blockIndex q.1 then p :: q :: qs
    else if env.blockIndex q.1 < env.blockIndex p.1 then q :: insert p qs
    else q :: qs

/-- `it->second += J` for the entry of `d`. -/
def addAt [Add K] (d : D) (J : Mat K) (m : List (D × Mat K)) : List (D × Mat K) :=
  m.map fun p => if env.blockIndex p.1 = env.blockIndex d then (p.1, p.2.add J) else p

/-- The inner loop of `add`, lines 34-38: insert entries of the right-hand side below the current
left key. -/
def ffwd (l : D) : List (D × Mat K) → List (D × Mat K) → List (D × Mat K) × List (D × Mat K)
  | [], m => ([], m)
  | r :: rt, m =>
    if env.blockIndex r.1 < env.blockIndex l then ffwd l rt (insert env r m) else (r :: rt, m)

/-- The outer loop of `add`, lines 30-45.  The first list holds the keys the left iterator has yet to
visit (insertions happen in front of it), the second what the right iterator has yet to visit.  Note
that after a match the right iterator is not advanced. -/
def addLoop [Add K] : List D → List (D × Mat K) → List (D × Mat K) →
    List (D × Mat K) × List (D × Mat K)
  | [], rt, m => (rt, m)
  | l :: lt, rt, m =>
    if rt.isEmpty then (rt, m)
    else
      let (rt, m) := ffwd env l rt m
      match rt with
      | [] => addLoop lt [] m
      | r :: rt =>
        if env.blockIndex r.1 = env.blockIndex l then addLoop lt (r :: rt) (addAt env l r.2 m)
        else addLoop lt (r :: rt) m

/-- `add(const JacobianContainer&)`, lines 20-50. -/
def addContainer [Add K] (a b : Container D K) : Out (Container D K) :=
  if a.rows ≠ b.rows then .raise
  else
    let (rt, m) := addLoop env (a.map.map (·.1)) b.map a.map
    .ok { a with map := rt.foldl (fun m p => insert env p m) m }

/-- `add(DesignVariable*, Jacobian)`, `JacobianContainer.hpp` 118-136. -/
def addBlock [Add K] (a : Container D K) (d : D) (J : Mat K) : Out (Container D K) :=
  if J.rows ≠ a.rows then .raise
  else if J.cols ≠ env.dim d then .raise
  else if env.active d = false then .ok a
  else
    match find env a.map d with
    | none => .ok { a with map := insert env (d, J) a.map }
    | some _ => .ok { a with map := addAt env d J a.map }

/-- `applyChainRule`, lines 90-98. -/
def applyChainRule [NonUnitalNonAssocSemiring K] (M : Mat K) (a : Container D K) :
    Out (Container D K) :=
  if M.cols ≠ a.rows then .raise
  else .ok { rows := M.rows, map := a.map.map fun p => (p.1, M.mul p.2) }

/-- `Jacobian(dv)`, lines 169-174. -/
def jacobian (a : Container D K) (d : D) : Out (Mat K) :=
  match find env a.map d with
  | some J => .ok J
  | none => .raise

/-- `cols()`, lines 259-267. -/
def cols (a : Container D K) : Nat := (a.map.map fun p => env.dim p.1).sum

/-- `asDenseMatrix()`, lines 205-209 and 236-257: the blocks side by side in map order. -/
def asDenseMatrix [Zero K] (a : Container D K) : Mat K where
  rows := a.rows
  cols := cols env a
  get := fun i j => go i a.map j
where
  /-- Entry in column `j` counted from the first block of the list. -/
  go (i : Nat) : List (D × Mat K) → Nat → K
    | [], _ => 0
    | p :: ps, j => if j < env.dim p.1 then p.2.get i j else go i ps (j - env.dim p.1)

end Kalibr.Jacobian
