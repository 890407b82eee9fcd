import Mathlib.Analysis.InnerProductSpace.Basic
import Verif.Common

/-!
# The dog leg of the first optimizer

Models `optimizeDogLeg` of `/repo/aslam_optimizer/aslam_backend/src/Optimizer.cpp` for problems without eliminated
variables.  The error terms, the linear systems and the updates are parameters.  A state that is reverted right after it was
updated is unchanged.  Numbers are exact reals and vectors those of an inner product space; a quotient by zero is infinite or
not a number as in IEEE arithmetic where the code compares it.  The choice of solvers, timing and messages are not modelled.
-/

namespace Kalibr.OldDog

variable {X E : Type} [NormedAddCommGroup E] [InnerProductSpace ℝ E]

/-- What the optimizer works on. -/
structure Problem (X E : Type) where
  /-- `evaluateError` (Optimizer.cpp:658-669). -/
  cost : X → ℝ
  /-- `_rhs` as built by `buildGnMatrices` (Optimizer.cpp:226-229, 389-395). -/
  rhs : X → E
  /-- `_H.multiply(&Hrhs, _rhs)` (Optimizer.cpp:252-253). -/
  hrhs : X → E
  /-- The solution of the system by the solver or the fallback (Optimizer.cpp:280-333); nothing if both fail. -/
  newton : X → Option E
  /-- `applyStateUpdate` (Optimizer.cpp:609-638) on the state. -/
  apply : X → E → X
  /-- What it returns. -/
  size : E → ℝ

/-- `stepType`. -/
inductive Kind
  | SD | GN | DL
  deriving DecidableEq

/-- `_sd_scale` (Optimizer.cpp:255). -/
noncomputable def sdScale (P : Problem X E) (x : X) : ℝ := ‖P.rhs x‖ ^ 2 / ‖P.hrhs x‖ ^ 2

/-- `_dx_sd` (Optimizer.cpp:257). -/
noncomputable def sd (P : Problem X E) (x : X) : E := sdScale P x • P.rhs x

/-- `_dx_gn` (Optimizer.cpp:299-321). -/
noncomputable def gn (P : Problem X E) (x : X) : E := (P.newton x).getD (sd P x)

/-- `beta` (Optimizer.cpp:351-365), with the steepest descent step and the difference of the steps. -/
noncomputable def beta (s d : E) (delta : ℝ) : ℝ :=
  let a := ‖d‖ ^ 2
  let c := inner ℝ s d
  let e := delta * delta - ‖s‖ * ‖s‖
  if c ≤ 0 then (-c + Real.sqrt (c * c + a * e)) / a else e / (c + Real.sqrt (c * c + a * e))

/-- A step to be tried. -/
structure Trial (E : Type) where
  delta : ℝ
  dx : E
  L0 : ℝ
  kind : Kind

/-- The step (Optimizer.cpp:270-371); `1/2` is a quotient of integers. -/
noncomputable def trial (P : Problem X E) (x : X) (J delta : ℝ) : Trial E :=
  let s := sd P x
  if delta ≤ ‖s‖ ∧ delta ≠ 0 then
    ⟨delta, (delta / ‖s‖) • s, delta * (2 * ‖s‖ - delta) / (2 * sdScale P x), .SD⟩
  else
    let g := gn P x
    let delta := if delta = 0 then ‖s + (0.5 : ℝ) • (g - s)‖ else delta
    if ‖g‖ ≤ delta then ⟨delta, g, J, .GN⟩
    else
      let b := beta s (g - s) delta
      ⟨delta, s + b • (g - s),
        ((1 / 2 : ℤ) : ℝ) * sdScale P x * (1 - b) * (1 - b) * ‖P.rhs x‖ ^ 2 + b * (2 - b) * J, .DL⟩

/-- `rho` (Optimizer.cpp:384-386): an infinite quotient as a number of its sign, and no number as minus one. -/
noncomputable def ratio (a b : ℝ) : ℝ := if b = 0 then (if 0 < a then 1 else -1) else a / b

/-- The members and local variables of the loops. -/
structure Loop (X : Type) where
  cur : X
  lin : X
  J : ℝ
  pJ : ℝ
  delta : ℝ
  deltaX : ℝ
  deltaJ : ℝ
  rho : ℝ

/-- The new radius (Optimizer.cpp:401-421). -/
noncomputable def radius (delta rho dx g : ℝ) (k : Kind) : ℝ :=
  if 0.75 < rho then (if delta < 3 * dx then 3 * dx else delta)
  else if 0 < rho ∧ rho < 0.25 then delta / 2
  else if rho ≤ 0 then (if k = .GN then g / 2 else delta / 2)
  else delta

/-- One pass of the inner loop (Optimizer.cpp:269-430). -/
noncomputable def attempt (P : Problem X E) (s : Loop X) : Loop X :=
  let t := trial P s.lin s.J s.delta
  let x := P.apply s.cur t.dx
  let rho := ratio (s.pJ - P.cost x) t.L0
  let cur := if 0 < rho then x else s.cur
  let J := P.cost cur
  { cur := cur
    lin := if 0 < rho then x else s.lin
    J := if J < s.pJ then J else s.pJ
    pJ := if J < s.pJ then J else s.pJ
    delta := radius t.delta rho ‖t.dx‖ ‖gn P s.lin‖ t.kind
    deltaX := P.size t.dx
    deltaJ := s.pJ - J
    rho := rho }

/-- The inner loop (Optimizer.cpp:268-441), if it ends within a number of passes. -/
noncomputable def attempts (P : Problem X E) (conv : ℝ) : ℕ → Loop X → Option (Loop X)
  | 0, _ => none
  | n + 1, s =>
    let t := attempt P s
    if t.rho < 0 ∧ conv < t.delta then attempts P conv n t else some t

/-- Before the loops (Optimizer.cpp:202-241). -/
def start (P : Problem X E) (cx cj : ℝ) (x : X) : Loop X where
  cur := x
  lin := x
  J := P.cost x
  pJ := P.cost x
  delta := 0
  deltaX := cx + 1
  deltaJ := cj + 1
  rho := 0

open Classical in
/-- The outer loop (Optimizer.cpp:243-455), with the number of passes that may still follow, each with at most `fuel` passes
of the inner loop. -/
noncomputable def outer (P : Problem X E) (cx cj : ℝ) (fuel : ℕ) : ℕ → Loop X → Option (Loop X)
  | 0, s => some s
  | n + 1, s =>
    if cx < s.deltaX ∧ cj < |s.deltaJ| then
      match attempts P cx fuel s with
      | none => none
      | some t => outer P cx cj fuel n t
    else some s

end Kalibr.OldDog
