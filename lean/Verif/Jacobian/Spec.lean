import Verif.Jacobian.Model

/-!
# What a Jacobian container means

A container stands for a linear map from increments of the design variables to error vectors:
`eval c x i` is row `i` of the sum over the stored blocks `J` of `J · (x of that variable)`.
-/

namespace Kalibr.Jacobian

variable {D K : Type}

/-- The linear map a container stands for: `x d k` is coordinate `k` of the increment of `d`. -/
def eval [NonUnitalNonAssocSemiring K] (c : Container D K) (x : D → Nat → K) (i : Nat) : K :=
  (c.map.map fun p => ∑ k ∈ Finset.range p.2.cols, p.2.get i k * x p.1 k).sum

/-- The increments of the variables of the container one below the other, in the order of the
container. -/
def stacked (env : Env D K) (c : Container D K) (x : D → Nat → K) : List K :=
  c.map.flatMap fun p => (List.range (env.dim p.1)).map (x p.1)

/-- The blocks are in increasing order of block index, so no variable occurs twice. -/
def Ordered (env : Env D K) (c : Container D K) : Prop :=
  c.map.Pairwise fun p q => env.blockIndex p.1 < env.blockIndex q.1

/-- Every block has the rows of the container and the columns of its variable, and belongs to an
active variable. -/
def Fits (env : Env D K) (c : Container D K) : Prop :=
  ∀ p ∈ c.map, p.2.rows = c.rows ∧ p.2.cols = env.dim p.1 ∧ env.active p.1 = true

/-- Containers that can be obtained through the API: constructed empty, then filled by adding blocks,
adding containers and applying the chain rule, in any order. -/
inductive Reachable [NonUnitalNonAssocSemiring K] (env : Env D K) : Container D K → Prop
  | new (rows : Nat) : Reachable env (Container.new rows)
  | addBlock {a c : Container D K} (d : D) (J : Mat K) :
      Reachable env a → addBlock env a d J = .ok c → Reachable env c
  | add {a b c : Container D K} :
      Reachable env a → Reachable env b → addContainer env a b = .ok c → Reachable env c
  | chain {a c : Container D K} (M : Mat K) :
      Reachable env a → applyChainRule M a = .ok c → Reachable env c

/-- Active variables are told apart by their block index (what the optimiser's initialisation
establishes, see C24). -/
def Distinct (env : Env D K) : Prop :=
  ∀ d d', env.active d = true → env.active d' = true → env.blockIndex d = env.blockIndex d' → d = d'

end Kalibr.Jacobian
