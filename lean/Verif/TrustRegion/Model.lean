import Mathlib.Analysis.InnerProductSpace.Basic
import Mathlib.Analysis.SpecialFunctions.Sqrt
import Verif.Tactics

/-!
# Model of the trust region policies

Sources, all in `/repo/aslam_optimizer/aslam_backend/src`: `TrustRegionPolicy.cpp`,
`DogLegTrustRegionPolicy.cpp`, `LevenbergMarquardtTrustRegionPolicy.cpp`.

Doubles are real numbers and vectors are elements of a real inner product space `V`.  Quotients whose
divisor is zero are treated apart: the ratio `rho` can be infinite or not a number, and a step that is
not a number is the outcome `none`.
-/

namespace Kalibr.TrustRegion

/-- Members of `TrustRegionPolicy`. -/
structure Base where
  J : ℝ
  pJ : ℝ
  lastJ : ℝ
  first : Bool

/-- `optimizationStarting`, TrustRegionPolicy.cpp lines 30-37. -/
def Base.starting (J : ℝ) : Base := ⟨J, J, J, true⟩

/-- `solveSystem`, lines 42-48: the bookkeeping before the implementation is called. -/
def Base.enter (b : Base) (J : ℝ) (failed : Bool) : Base :=
  if failed then { b with J := J } else { b with pJ := b.lastJ, lastJ := J, J := J }

/-- `get_dJ`, lines 55-58. -/
def Base.dJ (b : Base) : ℝ := b.pJ - b.J

/-- A quotient of doubles. -/
inductive Rho
  | fin (r : ℝ)
  | pinf
  | ninf
  | nan

/-- Division; the divisor zero is taken to be positive zero. -/
noncomputable def Rho.div (num den : ℝ) : Rho :=
  if den ≠ 0 then .fin (num / den) else if 0 < num then .pinf else if num < 0 then .ninf else .nan

/-- `rho > a` -/
def Rho.gt : Rho → ℝ → Prop
  | .fin r, a => a < r
  | .pinf, _ => True
  | _, _ => False

/-- `rho < a` -/
def Rho.lt : Rho → ℝ → Prop
  | .fin r, a => r < a
  | .ninf, _ => True
  | _, _ => False

/-- `rho <= a` -/
def Rho.le : Rho → ℝ → Prop
  | .fin r, a => r ≤ a
  | .ninf, _ => True
  | _, _ => False

/-- The linear system as the dog leg policy sees it: the right-hand side, the value of `rhsJtJrhs`, the
vector that `solveSystem` writes and whether it reports success. -/
structure Sys (V : Type) where
  rhs : V
  curv : ℝ
  gn : V
  ok : Bool

/-- `_stepType`. -/
inductive StepType
  | none
  | SD
  | GN
  | DL
  deriving DecidableEq

/-- Members of `DogLegTrustRegionPolicy` and the system held by its solver. -/
structure DogLeg (V : Type) where
  base : Base
  dx : V
  sd : V
  gn : V
  sdNorm : ℝ
  gnNorm : ℝ
  L0 : ℝ
  scale : ℝ
  beta : ℝ
  delta : ℝ
  type : StepType
  sys : Sys V

variable {V : Type} [NormedAddCommGroup V] [InnerProductSpace ℝ V]

/-- `optimizationStarting` with `optimizationStartingImplementation`, DogLegTrustRegionPolicy.cpp lines
11-22.  The vectors and the step type (shadowed by a local variable in line 18) keep their values. -/
def DogLeg.starting (s : DogLeg V) (J : ℝ) : DogLeg V :=
  { s with base := .starting J, sdNorm := 0, gnNorm := 0, L0 := 0, scale := 0, beta := 0, delta := 0 }

open Classical in
/-- The update of the radius, lines 32-62. -/
noncomputable def DogLeg.radius (s : DogLeg V) : ℝ :=
  if s.base.first then s.delta
  else
    let rho := Rho.div s.base.dJ s.L0
    if rho.gt (3 / 4) then
      if 3 * ‖s.dx‖ < s.delta then s.delta else 3 * ‖s.dx‖
    else if rho.gt 0 ∧ rho.lt (1 / 4) then s.delta / 2
    else if rho.le 0 then
      if s.type = .GN then s.gnNorm / 2 else s.delta / 2
    else s.delta

/-- Rebuilding the system and the steepest descent step, lines 66-80. -/
noncomputable def DogLeg.rebuild (s : DogLeg V) (sys : Sys V) : DogLeg V :=
  { s with sys := sys, scale := ‖sys.rhs‖ ^ 2 / sys.curv, sd := (‖sys.rhs‖ ^ 2 / sys.curv) • sys.rhs,
           sdNorm := ‖(‖sys.rhs‖ ^ 2 / sys.curv) • sys.rhs‖ }

/-- Lines 85-90: the steepest descent step cut to the radius. -/
noncomputable def DogLeg.takeSD (s : DogLeg V) : DogLeg V :=
  { s with dx := (s.delta / s.sdNorm) • s.sd, L0 := s.delta * (2 * s.sdNorm - s.delta) / (2 * s.scale),
           type := .SD }

/-- Lines 97-104: the Gauss-Newton step of the solver.  The vector is overwritten even if the solver
fails, the norm only if it succeeds. -/
noncomputable def DogLeg.solveGN (s : DogLeg V) : DogLeg V :=
  if s.sys.ok then { s with gn := s.sys.gn, gnNorm := ‖s.sys.gn‖ } else { s with gn := s.sys.gn }

/-- Lines 108-110: the first radius. -/
noncomputable def DogLeg.firstRadius (s : DogLeg V) : DogLeg V :=
  if s.delta = 0 then { s with delta := ‖s.sd + (1 / 2 : ℝ) • (s.gn - s.sd)‖ } else s

/-- Lines 120-133: where the segment from the steepest descent step to the Gauss-Newton step leaves the
trust region. -/
noncomputable def DogLeg.computeBeta (s : DogLeg V) : ℝ :=
  let d := s.gn - s.sd
  let n2 := ‖d‖ ^ 2
  let c := inner ℝ s.sd d
  let root := Real.sqrt (c * c + n2 * (s.delta * s.delta - s.sdNorm * s.sdNorm))
  if c ≤ 0 then (-c + root) / n2
  else (s.delta * s.delta - s.sdNorm * s.sdNorm) / (c + root)

/-- Lines 112-139.  The integer quotient `1/2` in line 137 is zero, so that the first summand
vanishes. -/
noncomputable def DogLeg.takeGN (s : DogLeg V) (J : ℝ) : DogLeg V :=
  if s.gnNorm ≤ s.delta then { s with dx := s.gn, L0 := J, type := .GN }
  else
    { s with beta := s.computeBeta, dx := s.sd + s.computeBeta • (s.gn - s.sd),
             L0 := s.computeBeta * (2 - s.computeBeta) * J, type := .DL }

/-- The arguments of a call of `solveSystem`: the cost, whether the previous iteration failed and the
system that `buildSystem` would build now. -/
structure Call (V : Type) where
  J : ℝ
  failed : Bool
  sys : Sys V

/-- `solveSystem` with the dog leg policy, TrustRegionPolicy.cpp lines 40-53 and
DogLegTrustRegionPolicy.cpp lines 25-145: the new state and whether the call reports success; the step
is the member `dx`.  `none` when the steepest descent step is not a number. -/
noncomputable def DogLeg.solve (s : DogLeg V) (c : Call V) : Option (DogLeg V × Bool) :=
  let s := { s with base := s.base.enter c.J c.failed }
  let s := { s with delta := s.radius }
  if c.failed = false ∧ c.sys.curv = 0 then none
  else
    let s := if c.failed then s else s.rebuild c.sys
    if s.delta ≤ s.sdNorm ∧ s.delta ≠ 0 then
      let s := s.takeSD
      some ({ s with base := { s.base with first := false } }, true)
    else
      let s' := if c.failed then s else s.solveGN
      if c.failed = false ∧ s.sys.ok = false then
        some ({ s' with base := { s'.base with first := false } }, false)
      else
        let s := s'.firstRadius.takeGN c.J
        some ({ s with base := { s.base with first := false } }, true)

/-! ## Levenberg-Marquardt -/

/-- The linear system as the Levenberg-Marquardt policy sees it: the right-hand side, and for each
conditioner the vector that `solveSystem` writes and whether it reports success. -/
structure LSys (V : Type) where
  rhs : V
  sol : ℝ → V × Bool

/-- Members of `LevenbergMarquardtTrustRegionPolicy`. -/
structure LM (V : Type) where
  base : Base
  lam : ℝ
  gamma : ℝ
  beta : ℝ
  p : ℕ
  mu : ℝ
  dx : V
  sys : LSys V

/-- The parameters given to the constructor. -/
structure LMInit where
  lam : ℝ
  gamma : ℝ
  beta : ℝ
  p : ℕ
  mu : ℝ

/-- Lines 8-16: the default parameters. -/
noncomputable def LMInit.default : LMInit := ⟨1 / 1000, 3, 2, 3, 2⟩

/-- `optimizationStarting`, lines 37-46. -/
def LM.starting (s : LM V) (i : LMInit) (J : ℝ) : LM V :=
  { s with base := .starting J, lam := i.lam, gamma := i.gamma, beta := i.beta, p := i.p, mu := i.mu }

/-- `getLmRho`, lines 101-107. -/
noncomputable def LM.rho (s : LM V) : Rho :=
  Rho.div s.base.dJ (inner ℝ s.dx (s.lam • s.dx + s.sys.rhs))

/-- The arguments of a call: the cost, whether the previous iteration failed and the system that
`buildSystem` would build now. -/
structure LCall (V : Type) where
  J : ℝ
  failed : Bool
  sys : LSys V

open Classical in
/-- Lines 53-84: the update of the damping.  `none` when the damping is no longer a (finite) number: `rho`
is not a number, or it is infinite and the parameters are not `β > 1`, `p ≥ 1`. -/
noncomputable def LM.update (s : LM V) (c : LCall V) : Option (LM V) :=
  if s.base.first then some { s with sys := c.sys }
  else if c.failed then some { s with mu := s.mu * 2, lam := s.lam * (s.mu * 2) }
  else if s.rho.le 0 then some { s with mu := s.mu * 10, lam := s.lam * (s.mu * 10) }
  else
    let s' := { s with sys := c.sys }
    if 1 / 10 ^ 16 < s.lam then
      match s.rho with
      | .fin r =>
        let u1 := 1 / s.gamma
        let u2 := 1 - (s.beta - 1) * (2 * r - 1) ^ s.p
        some { s' with lam := s.lam * (if u2 < u1 then u1 else u2), mu := s.beta }
      | .pinf => if 1 < s.beta ∧ 0 < s.p then some { s' with lam := s.lam * (1 / s.gamma), mu := s.beta } else none
      | _ => none
    else some { s' with lam := 1 / 10 ^ 15 }

/-- `solveSystem` with the Levenberg-Marquardt policy, lines 48-90. -/
noncomputable def LM.solve (s : LM V) (c : LCall V) : Option (LM V × Bool) :=
  (LM.update { s with base := s.base.enter c.J c.failed } c).map fun s =>
    ({ s with dx := (s.sys.sol s.lam).1, base := { s.base with first := false } }, (s.sys.sol s.lam).2)

end Kalibr.TrustRegion
