import Verif.Lin.Model

/-!
# Specification of the linear solver

Least squares: `A x` is to come as near to `b` as possible.
-/

namespace Kalibr.Lin

open Finset

variable {K : Type} [Field K] [LinearOrder K]

/-- The sum of the squares of `A x - b`. -/
def cost (A b : Mat K) (x : Nat → K) : K :=
  ∑ i ∈ range A.rows, (∑ c ∈ range A.cols, A.get i c * x c - b.get i 0) ^ 2

/-- The columns of `q` are orthonormal. -/
def Orthonormal (m : Nat) (q : Nat → Nat → K) : Prop :=
  ∀ i k, i < m → k < m → ∑ l ∈ range m, q l i * q l k = if i = k then 1 else 0

/-- The orthogonal factor takes `M` to rows of which only the first `M.cols` are not zero, and the triangular system of
these is solved (so the columns of `M` are independent). -/
structure IsSpqr (M : Mat K) (F : Spqr K) : Prop where
  orth : Orthonormal M.rows F.q
  zero : ∀ i c, M.cols ≤ i → i < M.rows → c < M.cols → ∑ l ∈ range M.rows, F.q l i * M.get l c = 0
  solves : ∀ (d : Nat → K) i, i < M.cols →
    ∑ c ∈ range M.cols, (∑ l ∈ range M.rows, F.q l i * M.get l c) * F.solve d c = d i

/-- A singular value decomposition of a square matrix. -/
structure IsSvd (M : Mat K) (S : Svd K) : Prop where
  len : S.sv.length = M.cols
  Usize : S.U.rows = M.cols ∧ S.U.cols = M.cols
  Vsize : S.V.rows = M.cols ∧ S.V.cols = M.cols
  U : Orthonormal M.cols S.U.get
  V : Orthonormal M.cols S.V.get
  nonneg : ∀ k, k < M.cols → 0 ≤ S.sv.getD k 0
  sorted : ∀ k l, k ≤ l → l < M.cols → S.sv.getD l 0 ≤ S.sv.getD k 0
  prod : ∀ i j, i < M.cols → j < M.cols →
    M.get i j = ∑ k ∈ range M.cols, S.U.get i k * S.sv.getD k 0 * S.V.get j k

/-- The scale of column `c`: the reciprocal of its norm, zero if the norm is below the tolerance. -/
def scaleOf (T : Tools K) (o : Options K) (A : Mat K) (c : Nat) : K :=
  if o.columnScaling then
    (if T.sqrt (∑ i ∈ range A.rows, A.get i c * A.get i c) < T.sqrt ((A.rows : K) * o.epsNorm) then 0
     else 1 / T.sqrt (∑ i ∈ range A.rows, A.get i c * A.get i c))
  else 1

/-- The first `n` columns, scaled. -/
def leftPart (T : Tools K) (o : Options K) (A : Mat K) (n : Nat) : Mat K :=
  ⟨A.rows, n, fun i c => A.get i c * scaleOf T o A c⟩

/-- The other columns, scaled. -/
def rightPart (T : Tools K) (o : Options K) (A : Mat K) (n : Nat) : Mat K :=
  ⟨A.rows, A.cols - n, fun i c => A.get i (n + c) * scaleOf T o A (n + c)⟩

/-- The first `n` columns. -/
def firstColumns (A : Mat K) (n : Nat) : Mat K := ⟨A.rows, n, A.get⟩

/-- The columns after the first `n`. -/
def lastColumns (A : Mat K) (n : Nat) : Mat K := ⟨A.rows, A.cols - n, fun i c => A.get i (n + c)⟩

/-- The products of the columns of `R`, with the first `k` of the orthonormal directions `q` taken out. -/
def without (q : Nat → Nat → K) (k : Nat) (R : Mat K) : Mat K :=
  ⟨R.cols, R.cols, fun c c' => ∑ i ∈ Ico k R.rows,
    (∑ l ∈ range R.rows, q l i * R.get l c) * ∑ l ∈ range R.rows, q l i * R.get l c'⟩

/-- The component of `A x - b` along direction `n`. -/
def along (q : Nat → Nat → K) (n : Nat) (A b : Mat K) (x : Nat → K) : K :=
  ∑ l ∈ range A.rows, q l n * (∑ c ∈ range A.cols, A.get l c * x c - b.get l 0)

/-- The quadratic form of a matrix. -/
def form (r : Nat) (Ω : Nat → Nat → K) (x : Nat → K) : K := ∑ i ∈ range r, ∑ j ∈ range r, x i * Ω i j * x j

/-- `Ω` is the information about the last `r` unknowns: the least sum of squares of `A x` over the first `n`. -/
def IsInformation (A : Mat K) (n r : Nat) (Ω : Nat → Nat → K) : Prop :=
  ∀ y : Nat → K,
    (∀ x : Nat → K, form r Ω y ≤ ∑ i ∈ range A.rows,
      (∑ c ∈ range n, A.get i c * x c + ∑ c ∈ range r, A.get i (n + c) * y c) ^ 2) ∧
    ∃ x : Nat → K, form r Ω y = ∑ i ∈ range A.rows,
      (∑ c ∈ range n, A.get i c * x c + ∑ c ∈ range r, A.get i (n + c) * y c) ^ 2

end Kalibr.Lin
