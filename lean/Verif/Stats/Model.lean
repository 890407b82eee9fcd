import Mathlib.Analysis.SpecialFunctions.Gamma.Deriv
import Mathlib.Analysis.SpecialFunctions.Log.Basic
import Mathlib.Analysis.SpecialFunctions.Pow.Real
import Mathlib.LinearAlgebra.Matrix.NonsingularInverse
import Mathlib.LinearAlgebra.Matrix.PosDef
import Mathlib.MeasureTheory.Integral.IntervalIntegral.Basic
import Verif.Common
import Verif.Tactics

/-!
# Model of the distributions and of the maximum likelihood estimators of the incremental calibration

Sources, in `/repo/aslam_incremental_calibration/aslam_incremental_calibration/`:
`src/statistics/NormalDistribution1v.cpp`, `include/aslam_incremental_calibration/statistics/NormalDistributionMv.tpp`,
`src/statistics/EstimatorMLNormal1v.cpp`, `include/aslam_incremental_calibration/statistics/EstimatorMLNormalMv.tpp`.

Simplifications: exact real arithmetic; the number of points does not overflow `size_t`, nor does its square.  The
functions of the C library are the functions they approximate.  The decompositions of Eigen are parameters with the
properties Eigen documents (`Eig`).  A method that throws is a pair of the object it leaves and a flag.
-/

namespace Kalibr.Stats

open Matrix

/-- `NormalDistribution<1>`, `NormalDistribution1v.h` 121-130. -/
structure Normal1 where
  mean : ℝ
  variance : ℝ
  precision : ℝ
  std : ℝ
  normalizer : ℝ

/-- `setMean`, `NormalDistribution1v.cpp` 87-89. -/
def Normal1.setMean (d : Normal1) (m : ℝ) : Normal1 := { d with mean := m }

/-- `setVariance`, `NormalDistribution1v.cpp` 95-105; `none` when it throws, which leaves the object as it is. -/
noncomputable def Normal1.setVariance (d : Normal1) (v : ℝ) : Option Normal1 :=
  if v ≤ 0 then none
  else some { d with variance := v, precision := 1 / v, std := Real.sqrt v, normalizer := 1 / 2 * Real.log (2 * Real.pi * v) }

/-- The constructor, `NormalDistribution1v.cpp` 31-34; the other members are not read before they are set. -/
noncomputable def Normal1.make (m v : ℝ) : Option Normal1 := Normal1.setVariance ⟨m, 0, 0, 0, 0⟩ v

/-- `mahalanobisDistance`, lines 150-153. -/
def Normal1.mahalanobis (d : Normal1) (x : ℝ) : ℝ := (x - d.mean) * d.precision * (x - d.mean)

/-- `logpdf`, lines 129-131. -/
noncomputable def Normal1.logpdf (d : Normal1) (x : ℝ) : ℝ := -(1 / 2) * d.mahalanobis x - d.normalizer

/-- `pdf`, lines 125-127. -/
noncomputable def Normal1.pdf (d : Normal1) (x : ℝ) : ℝ := Real.exp (d.logpdf x)

/-- The error function of the C library. -/
noncomputable def erf (x : ℝ) : ℝ := 2 / Real.sqrt Real.pi * ∫ t in (0 : ℝ)..x, Real.exp (-t ^ 2)

/-- `cdf`, lines 133-135. -/
noncomputable def Normal1.cdf (d : Normal1) (x : ℝ) : ℝ := 1 / 2 * (1 + erf ((x - d.mean) / Real.sqrt (2 * d.variance)))

/-- `KLDivergence`, lines 143-148. -/
noncomputable def Normal1.divergence (d o : Normal1) : ℝ :=
  1 / 2 * (Real.log (o.variance * d.precision) + o.precision * d.variance - 1 +
    (d.mean - o.mean) * o.precision * (d.mean - o.mean))

/-- `getMedian`, lines 155-157. -/
def Normal1.median (d : Normal1) : ℝ := d.mean

/-- `getMode`, lines 159-161. -/
def Normal1.mode (d : Normal1) : ℝ := d.mean

/-- A call of a setter of the distribution. -/
inductive NOp where
  | setMean (m : ℝ)
  | setVariance (v : ℝ)

/-- The object after a call whose exception, if any, is caught by the caller. -/
noncomputable def Normal1.run (d : Normal1) : NOp → Normal1
  | .setMean m => d.setMean m
  | .setVariance v => (d.setVariance v).getD d

/-- `EstimatorML<NormalDistribution<1> >`, `EstimatorMLNormal1v.h` 108-117. -/
structure Est1 where
  dist : Normal1
  num : ℕ
  valid : Bool
  sum : ℝ
  sq : ℝ

/-- The default constructor, `EstimatorMLNormal1v.cpp` 28-33; the distribution is the standard one,
`NormalDistribution1v.h` 54. -/
noncomputable def Est1.new : Est1 := ⟨((Normal1.make 0 1).getD ⟨0, 0, 0, 0, 0⟩), 0, false, 0, 0⟩

/-- `reset`, lines 97-102. -/
def Est1.reset (e : Est1) : Est1 := { e with num := 0, valid := false, sum := 0, sq := 0 }

/-- The `try` block of lines 109-118 and of lines 147-154. -/
noncomputable def Est1.store (e : Est1) (m v : ℝ) : Est1 :=
  match (e.dist.setMean m).setVariance v with
  | some d => { e with dist := d, valid := true }
  | none => { e with dist := e.dist.setMean m, valid := false }

/-- `addPoint`, lines 104-119. -/
noncomputable def Est1.addPoint (e : Est1) (x : ℝ) : Est1 :=
  let n := e.num + 1
  let s := e.sum + x
  let q := e.sq + x * x
  let m := s / n
  Est1.store { e with num := n, sum := s, sq := q } m (q / n - s * s * 2 / (n * n) + m * m)

/-- `addPoints`, lines 121-130. -/
noncomputable def Est1.addPoints (e : Est1) (xs : List ℝ) : Est1 := xs.foldl Est1.addPoint e

/-- The weighted sum of lines 138-139 and of lines 143-145. -/
def wsum (f : ℝ → ℝ) : List ℝ → List ℝ → ℝ
  | x :: xs, r :: rs => r * f x + wsum f xs rs
  | _, _ => 0

/-- `addPoints` with responsibilities, lines 132-155.  Responsibilities whose sum is zero make the mean and the
variance the result of a division by zero, which no test rejects: the outcome `ub` stands for it. -/
noncomputable def Est1.addWeighted (e : Est1) (xs rs : List ℝ) : Out Est1 :=
  if rs.length ≠ xs.length then .ok e
  else if rs.sum = 0 then .ub
  else
    let m := wsum (fun x => x) xs rs / rs.sum
    .ok (e.store m (wsum (fun x => (x - m) * (x - m)) xs rs / rs.sum))

/-- A call of the estimator. -/
inductive EOp (P : Type) where
  | addPoint (x : P)
  | addPoints (xs : List P)
  | addWeighted (xs : List P) (rs : List ℝ)
  | reset

/-- One call of the estimator of numbers. -/
noncomputable def Est1.step (e : Est1) : EOp ℝ → Out Est1
  | .addPoint x => .ok (e.addPoint x)
  | .addPoints xs => .ok (e.addPoints xs)
  | .addWeighted xs rs => e.addWeighted xs rs
  | .reset => .ok e.reset

/-- A history of calls of the estimator of numbers. -/
noncomputable def Est1.run (e : Est1) : List (EOp ℝ) → Out Est1
  | [] => .ok e
  | o :: os => (e.step o).bind fun e' => Est1.run e' os

/-! ## Vectors -/

/-- What is used of Eigen: the inverse, the lower Cholesky factor and the test of the sign of `LDLT`. -/
structure Eig (n : ℕ) where
  inverse : Matrix (Fin n) (Fin n) ℝ → Matrix (Fin n) (Fin n) ℝ
  llt : Matrix (Fin n) (Fin n) ℝ → Matrix (Fin n) (Fin n) ℝ
  isPositive : Matrix (Fin n) (Fin n) ℝ → Bool

/-- `NormalDistribution<M>`, `NormalDistributionMv.h` 134-145. -/
structure NormalM (n : ℕ) where
  mean : Fin n → ℝ
  cov : Matrix (Fin n) (Fin n) ℝ
  precision : Matrix (Fin n) (Fin n) ℝ
  det : ℝ
  normalizer : ℝ
  factor : Matrix (Fin n) (Fin n) ℝ

variable {n : ℕ}

/-- `setMean`, `NormalDistributionMv.tpp` 99-102. -/
def NormalM.setMean (d : NormalM n) (m : Fin n → ℝ) : NormalM n := { d with mean := m }

open Classical in
/-- `setCovariance`, `NormalDistributionMv.tpp` 110-132: the object and whether the call returned.  The factor is stored before the
matrix is tested. -/
noncomputable def NormalM.setCovariance (E : Eig n) (d : NormalM n) (S : Matrix (Fin n) (Fin n) ℝ) : NormalM n × Bool :=
  if Sᵀ ≠ S then (d, false)
  else
    let d1 := { d with factor := E.llt S }
    if E.isPositive S = false then (d1, false)
    else if ∃ i, S i i < 0 then (d1, false)
    else ({ d1 with precision := E.inverse S, det := S.det,
                    normalizer := 1 / 2 * n * Real.log (2 * Real.pi) + 1 / 2 * Real.log S.det, cov := S }, true)

/-- The constructor, `NormalDistributionMv.tpp` 31-36: `none` when it throws. -/
noncomputable def NormalM.make (E : Eig n) (m : Fin n → ℝ) (S : Matrix (Fin n) (Fin n) ℝ) : Option (NormalM n) :=
  match NormalM.setCovariance E ⟨m, 0, 0, 0, 0, 0⟩ S with
  | (d, true) => some d
  | (_, false) => none

/-- `mahalanobisDistance`, lines 192-197. -/
def NormalM.mahalanobis (d : NormalM n) (x : Fin n → ℝ) : ℝ := (x - d.mean) ᵥ* d.precision ⬝ᵥ (x - d.mean)

/-- `logpdf`, lines 167-171. -/
noncomputable def NormalM.logpdf (d : NormalM n) (x : Fin n → ℝ) : ℝ := -(1 / 2) * d.mahalanobis x - d.normalizer

/-- `pdf`, lines 162-165. -/
noncomputable def NormalM.pdf (d : NormalM n) (x : Fin n → ℝ) : ℝ := Real.exp (d.logpdf x)

/-- `getSample`, lines 173-181, for the numbers drawn by `sampleNormal`. -/
def NormalM.sample (d : NormalM n) (z : Fin n → ℝ) : Fin n → ℝ := d.mean + d.factor *ᵥ z

/-- `KLDivergence`, lines 183-190. -/
noncomputable def NormalM.divergence (d o : NormalM n) : ℝ :=
  1 / 2 * (Real.log (o.det / d.det) + (o.precision * d.cov).trace - n +
    (d.mean - o.mean) ᵥ* o.precision ⬝ᵥ (d.mean - o.mean))

/-- `EstimatorML<NormalDistribution<M> >`, `EstimatorMLNormalMv.h` 116-126. -/
structure EstM (n : ℕ) where
  dist : NormalM n
  num : ℕ
  valid : Bool
  sum : Fin n → ℝ
  sq : Matrix (Fin n) (Fin n) ℝ

/-- `reset`, `EstimatorMLNormalMv.tpp` 106-110: the sums are kept. -/
def EstM.reset (e : EstM n) : EstM n := { e with num := 0, valid := false }

/-- The `try` block of lines 122-132 and of lines 166-173. -/
noncomputable def EstM.store (E : Eig n) (e : EstM n) (m : Fin n → ℝ) (S : Matrix (Fin n) (Fin n) ℝ) : EstM n :=
  { e with dist := (NormalM.setCovariance E (e.dist.setMean m) S).1, valid := (NormalM.setCovariance E (e.dist.setMean m) S).2 }

/-- `addPoint`, lines 112-133; the sums are cleared with the first point. -/
noncomputable def EstM.addPoint (E : Eig n) (e : EstM n) (x : Fin n → ℝ) : EstM n :=
  let s0 := if e.num = 0 then 0 else e.sum
  let q0 := if e.num = 0 then 0 else e.sq
  let k : ℝ := ((e.num + 1 : ℕ) : ℝ)
  let s := s0 + x
  let q := q0 + vecMulVec x x
  let m := k⁻¹ • s
  EstM.store E { e with num := e.num + 1, sum := s, sq := q } m
    (k⁻¹ • q - (k * k)⁻¹ • ((2 : ℝ) • vecMulVec s s) + vecMulVec m m)

/-- `addPoints`, lines 135-146. -/
noncomputable def EstM.addPoints (E : Eig n) (e : EstM n) (xs : List (Fin n → ℝ)) : EstM n := xs.foldl (EstM.addPoint E) e

/-- The sums of lines 156-157 and of lines 162-164. -/
def wsumM {β : Type} [AddCommMonoid β] [SMul ℝ β] (f : (Fin n → ℝ) → β) : List (Fin n → ℝ) → List ℝ → β
  | x :: xs, r :: rs => r • f x + wsumM f xs rs
  | _, _ => 0

/-- `addPoints` with responsibilities, lines 148-174.  An empty range is dereferenced; responsibilities whose sum is zero
make every number the result of a division by zero: both are the outcome `ub`. -/
noncomputable def EstM.addWeighted (E : Eig n) (e : EstM n) (xs : List (Fin n → ℝ)) (rs : List ℝ) : Out (EstM n) :=
  if rs.length ≠ xs.length then .ok e
  else if xs = [] then .ub
  else if rs.sum = 0 then .ub
  else
    let m := rs.sum⁻¹ • wsumM (fun x => x) xs rs
    .ok (e.store E m (rs.sum⁻¹ • wsumM (fun x => vecMulVec (x - m) (x - m)) xs rs))

/-- One call of the estimator of vectors. -/
noncomputable def EstM.step (E : Eig n) (e : EstM n) : EOp (Fin n → ℝ) → Out (EstM n)
  | .addPoint x => .ok (e.addPoint E x)
  | .addPoints xs => .ok (e.addPoints E xs)
  | .addWeighted xs rs => e.addWeighted E xs rs
  | .reset => .ok e.reset

/-- A history of calls of the estimator of vectors. -/
noncomputable def EstM.run (E : Eig n) (e : EstM n) : List (EOp (Fin n → ℝ)) → Out (EstM n)
  | [] => .ok e
  | o :: os => (e.step E o).bind fun e' => EstM.run E e' os

end Kalibr.Stats
