import Mathlib.Data.Real.Archimedean
import Mathlib.Data.Int.Notation
import Verif.Common

/-!
# Random numbers

Models `/repo/Schweizer-Messer/sm_random/src/random.cpp` over the parts of Boost it uses: an engine with words of 32 bits,
`boost::mt19937`, whose `seed` converts to 32 bits; `boost::uniform_real<>(0, 1)`, the word over `2^32`; and
`boost::normal_distribution<>`, which may keep a value for the next call.  The two variate generators hold copies of the
distributions but share the engine.  Numbers are exact reals.  Calls from several threads are not modelled.
-/

namespace Kalibr.Random

/-- The engine and the normal distribution of Boost. -/
structure Boost where
  E : Type
  N : Type
  init : E
  seed : ℕ → E
  next : E → ℕ × E
  word : ∀ e, (next e).1 < 2 ^ 32
  fresh : N
  normal : E → N → ℝ × E × N

/-- The members of `Random` that change (random.cpp:20-26). -/
structure State (B : Boost) where
  e : B.E
  n : B.N

/-- The instance before the first call (random.cpp:28, 51-55). -/
def State.new (B : Boost) : State B := ⟨B.init, B.fresh⟩

/-- `uniform` (random.cpp:38-41). -/
noncomputable def State.uniform {B : Boost} (s : State B) : ℝ × State B :=
  ((B.next s.e).1 / 2 ^ 32, { s with e := (B.next s.e).2 })

/-- `normal` (random.cpp:33-36). -/
def State.normal {B : Boost} (s : State B) : ℝ × State B :=
  let r := B.normal s.e s.n
  (r.1, ⟨r.2.1, r.2.2⟩)

/-- `seed` (random.cpp:43-49): the engine, seeded twice, and the normal distribution; that of the uniform distribution has
nothing to reset. -/
def State.seed {B : Boost} (s : State B) (v : ℕ) : State B :=
  let s := { s with e := B.seed (v % 2 ^ 32) }
  let s := { s with n := B.fresh }
  { s with e := B.seed (v % 2 ^ 32) }

/-- `randLU` (random.cpp:78-81). -/
noncomputable def State.randLU {B : Boost} (s : State B) (lo hi : ℝ) : ℝ × State B :=
  (s.uniform.1 * (hi - lo) + lo, s.uniform.2)

/-- Whether a number is an `int`. -/
def isInt (z : ℤ) : Prop := -2 ^ 31 ≤ z ∧ z < 2 ^ 31

/-- `randLUi` (random.cpp:83-86); the difference of the bounds and the sum are taken in `int`. -/
noncomputable def State.randLUi {B : Boost} (s : State B) (lo hi : ℤ) : Out (ℤ × State B) :=
  open Classical in
  if ¬ isInt (hi - lo) then .ub
  else
    let f := ⌊s.uniform.1 * ((hi - lo : ℤ) : ℝ)⌋
    if ¬ isInt f ∨ ¬ isInt (f + lo) then .ub else .ok (f + lo, s.uniform.2)

/-- The calls of the interface: `normal` and `randn`, `uniform` and `rand`, `randLU`, `randLUi`, `seed`. -/
inductive Call where
  | normal
  | uniform
  | randLU (lo hi : ℝ)
  | randLUi (lo hi : ℤ)
  | seed (v : ℕ)

/-- One call: what it returns, with zero for `seed`, and the state after it. -/
noncomputable def State.call {B : Boost} (s : State B) : Call → Out (ℝ × State B)
  | .normal => .ok s.normal
  | .uniform => .ok s.uniform
  | .randLU lo hi => .ok (s.randLU lo hi)
  | .randLUi lo hi => (s.randLUi lo hi).bind fun r => .ok (r.1, r.2)
  | .seed v => .ok (0, s.seed v)

/-- A sequence of calls and what they return. -/
noncomputable def State.run {B : Boost} (s : State B) : List Call → Out (List ℝ × State B)
  | [] => .ok ([], s)
  | c :: l => (s.call c).bind fun r => (r.2.run l).bind fun q => .ok (r.1 :: q.1, q.2)

end Kalibr.Random
