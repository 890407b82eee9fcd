import Verif.Normal.Model
import Verif.Sparse.Spec
import Verif.Jacobian.Spec

/-!
# The normal equations

`gJ env c r a i`: the derivative of error coordinate `a` by coordinate `i` of block `r` of the unknowns,
scaled: the sum of the stored blocks for that block number (there is at most one).
`info S a b`: entry of `S Sᵀ`, the inverse covariance.
`hess` and `grad` are `Jᵀ (S Sᵀ) J` and `Jᵀ (S Sᵀ) e`.
-/

namespace Kalibr.Normal

open Jacobian Sparse

variable {D K : Type} [CommRing K]

/-- Scaled derivative of error coordinate `a` by coordinate `i` of block `r`. -/
def gJ (env : Env D K) (c : Container D K) (r a i : Nat) : K :=
  (c.map.map fun p => if env.blockIndex p.1 = r then env.scaling p.1 * p.2.get a i else 0).sum

/-- Entry of the inverse covariance `S Sᵀ`. -/
def info (S : Mat K) (a b : Nat) : K := ∑ k ∈ Finset.range S.cols, S.get a k * S.get b k

/-- Entry of `Jᵀ invR J` at coordinate `i` of block `r` and coordinate `j` of block `c`. -/
def hess (env : Env D K) (J : Container D K) (S : Mat K) (r c i j : Nat) : K :=
  ∑ a ∈ Finset.range S.rows, ∑ b ∈ Finset.range S.rows, gJ env J r a i * info S a b * gJ env J c b j

/-- Entry of `Jᵀ invR e` at coordinate `i` of block `r`. -/
def grad (env : Env D K) (J : Container D K) (S : Mat K) (e : Nat → K) (r i : Nat) : K :=
  ∑ a ∈ Finset.range S.rows, ∑ b ∈ Finset.range S.rows, gJ env J r a i * info S a b * e b

/-- The Jacobian container fits the error and the block layout: rows as many as the error has
coordinates, every variable has its own block, inside the matrix and of its dimension. -/
structure Fit (env : Env D K) (c : Container D K) (S : Mat K) (H : SBM K) : Prop where
  rows : c.rows = S.rows
  ordered : Ordered env c
  fits : Fits env c
  inside : ∀ p ∈ c.map, 0 ≤ env.blockIndex p.1 ∧ place env p < H.rbi.length
  dims : ∀ p ∈ c.map, size H.rbi (place env p) = env.dim p.1

end Kalibr.Normal
