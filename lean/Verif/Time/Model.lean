import Verif.Common
import Mathlib.Data.Rat.Floor
import Mathlib.Algebra.Order.Round

/-!
# Model of `aslam_time`

Source: `/repo/aslam_cv/aslam_time`.

Fields are mathematical integers; `Time.Stored` / `Duration.Stored` say that they fit the C++
types (`uint32_t`, `int32_t`).  64-bit intermediate sums of 32-bit fields cannot overflow and are
therefore plain integers.  Conversions to a narrower unsigned or signed type wrap (what every
supported compiler does); overflow of 32-bit signed arithmetic is `Out.ub`.
`double` is modelled by exact rationals.
-/

namespace Kalibr.AslamTime

/-- One second in nanoseconds. -/
abbrev giga : Int := 1000000000

/-- `x` fits an `int32_t`. -/
def FitsI32 (x : Int) : Prop := -2147483648 ≤ x ∧ x ≤ 2147483647
/-- `x` fits an `uint32_t`. -/
def FitsU32 (x : Int) : Prop := 0 ≤ x ∧ x < 4294967296

instance (x : Int) : Decidable (FitsI32 x) := by unfold FitsI32; infer_instance
instance (x : Int) : Decidable (FitsU32 x) := by unfold FitsU32; infer_instance

/-- Conversion to `uint32_t`. -/
def toU32 (x : Int) : Int := x % 4294967296
/-- Conversion to `int32_t` (two's complement). -/
def toI32 (x : Int) : Int := (x + 2147483648) % 4294967296 - 2147483648

/-- A 32-bit signed arithmetic result: undefined when it does not fit. -/
def i32 (x : Int) : Out Int := if FitsI32 x then .ok x else .ub

/-- `aslam::Time` (aslam_time/Time.hpp:119-131): two `uint32_t` fields. -/
structure Time where
  sec : Int
  nsec : Int
  deriving Repr, DecidableEq

/-- `aslam::Duration` (aslam_time/Duration.hpp:72-79): two `int32_t` fields. -/
structure Duration where
  sec : Int
  nsec : Int
  deriving Repr, DecidableEq

/-- The fields fit their C++ types. -/
def Time.Stored (t : Time) : Prop := FitsU32 t.sec ∧ FitsU32 t.nsec
/-- The fields fit their C++ types. -/
def Duration.Stored (d : Duration) : Prop := FitsI32 d.sec ∧ FitsI32 d.nsec

/-- `while (nsec_part >= 1000000000L) { nsec_part -= 1000000000L; ++sec_part; }`
(src/time.cpp:373-376).  Returns `(sec, nsec)`. -/
def carryGe (sec nsec : Int) : Int × Int :=
  if 1000000000 ≤ nsec then carryGe (sec + 1) (nsec - 1000000000) else (sec, nsec)
  termination_by nsec.toNat
  decreasing_by omega

/-- `while (nsec_part > 1000000000L) { ... }` (src/duration.cpp:10-13; note the strict
comparison). -/
def carryGt (sec nsec : Int) : Int × Int :=
  if 1000000000 < nsec then carryGt (sec + 1) (nsec - 1000000000) else (sec, nsec)
  termination_by nsec.toNat
  decreasing_by omega

/-- `while (nsec_part < 0) { nsec_part += 1000000000L; --sec_part; }`
(src/duration.cpp:14-17, src/time.cpp:377-380). -/
def borrow (sec nsec : Int) : Int × Int :=
  if nsec < 0 then borrow (sec - 1) (nsec + 1000000000) else (sec, nsec)
  termination_by (-nsec).toNat
  decreasing_by omega

/-- `normalizeSecNSecSigned` (src/duration.cpp:6-24 and the 32-bit overload 26-34; the final
narrowing casts are value preserving because the range has just been checked). -/
def normSigned (sec nsec : Int) : Out (Int × Int) :=
  let p := carryGt sec nsec
  let q := borrow p.1 p.2
  if q.1 < -2147483648 ∨ q.1 > 2147483647 then .raise else .ok q

/-- `normalizeSecNSecUnsigned` (src/time.cpp:369-387). -/
def normUnsigned (sec nsec : Int) : Out (Int × Int) :=
  let p := carryGe sec nsec
  let q := borrow p.1 p.2
  if q.1 < 0 ∨ q.1 > 2147483647 then .raise else .ok q

/-- `Time(uint32_t, uint32_t)` with `normalizeSecNSec` (Time.hpp:127-131, src/time.cpp:348-367):
the range test on `sec_part` can never fire for 32-bit input, the sum is narrowed silently. -/
def Time.mk' (sec nsec : Int) : Time :=
  ⟨toU32 (sec + nsec / 1000000000), toU32 (nsec % 1000000000)⟩

/-- `DurationBase(int32_t, int32_t)` (implementation/Duration.hpp:45-50). -/
def Duration.mk' (sec nsec : Int) : Out Duration := do
  let q ← normSigned sec nsec
  return ⟨q.1, q.2⟩

/-- `TimeBase::operator+` (implementation/Time.hpp:82-92). -/
def Time.add (t : Time) (d : Duration) : Out Time := do
  let q ← normUnsigned (t.sec + d.sec) (t.nsec + d.nsec)
  return Time.mk' (toU32 q.1) (toU32 q.2)

/-- Unary minus of a duration (implementation/Duration.hpp:93-96): negating the smallest `int32_t`
is undefined. -/
def Duration.neg (d : Duration) : Out Duration := do
  let s ← i32 (-d.sec)
  let n ← i32 (-d.nsec)
  Duration.mk' s n

/-- `TimeBase::operator-(const D&)` (implementation/Time.hpp:77-80). -/
def Time.subD (t : Time) (d : Duration) : Out Time := do
  let m ← d.neg
  t.add m

/-- `TimeBase::operator-(const T&)` (implementation/Time.hpp:71-75). -/
def Time.sub (t u : Time) : Out Duration := do
  let s ← i32 (toI32 t.sec - toI32 u.sec)
  let n ← i32 (toI32 t.nsec - toI32 u.nsec)
  Duration.mk' s n

/-- `DurationBase::operator+` (implementation/Duration.hpp:78-81). -/
def Duration.add (d e : Duration) : Out Duration := do
  let s ← i32 (d.sec + e.sec)
  let n ← i32 (d.nsec + e.nsec)
  Duration.mk' s n

/-- `DurationBase::operator-` (implementation/Duration.hpp:88-91). -/
def Duration.sub (d e : Duration) : Out Duration := do
  let s ← i32 (d.sec - e.sec)
  let n ← i32 (d.nsec - e.nsec)
  Duration.mk' s n

/-- `TimeBase::operator==` (implementation/Time.hpp:106-109). -/
def Time.eq (t u : Time) : Bool := t.sec == u.sec && t.nsec == u.nsec
/-- `TimeBase::operator<` (implementation/Time.hpp:111-118). -/
def Time.lt (t u : Time) : Bool :=
  if t.sec < u.sec then true else if t.sec = u.sec ∧ t.nsec < u.nsec then true else false
/-- `TimeBase::operator>` (implementation/Time.hpp:120-127). -/
def Time.gt (t u : Time) : Bool :=
  if t.sec > u.sec then true else if t.sec = u.sec ∧ t.nsec > u.nsec then true else false
/-- `TimeBase::operator<=` (implementation/Time.hpp:129-136). -/
def Time.le (t u : Time) : Bool :=
  if t.sec < u.sec then true else if t.sec = u.sec ∧ t.nsec ≤ u.nsec then true else false
/-- `TimeBase::operator>=` (implementation/Time.hpp:138-145). -/
def Time.ge (t u : Time) : Bool :=
  if t.sec > u.sec then true else if t.sec = u.sec ∧ t.nsec ≥ u.nsec then true else false

/-- `DurationBase::operator==` (implementation/Duration.hpp:152-155). -/
def Duration.eq (t u : Duration) : Bool := t.sec == u.sec && t.nsec == u.nsec
/-- `DurationBase::operator<` (implementation/Duration.hpp:116-123). -/
def Duration.lt (t u : Duration) : Bool :=
  if t.sec < u.sec then true else if t.sec = u.sec ∧ t.nsec < u.nsec then true else false

/-- `TimeBase::toNSec` (Time.hpp:161-163); the `uint64_t` arithmetic cannot wrap. -/
def Time.toNSec (t : Time) : Int := t.sec * 1000000000 + t.nsec
/-- `DurationBase::toNSec` (Duration.hpp:105-107); the `int64_t` arithmetic cannot overflow. -/
def Duration.toNSec (d : Duration) : Int := d.sec * 1000000000 + d.nsec

/-- `TimeBase::fromNSec` (implementation/Time.hpp:61-69), for a `uint64_t` argument: cast to
`int32_t`, store in `uint32_t`, normalise. -/
def Time.fromNSec (t : Int) : Time :=
  Time.mk' (toU32 (toI32 (t / 1000000000))) (toU32 (toI32 (t % 1000000000)))

/-- `DurationBase::fromNSec` (implementation/Duration.hpp:68-76), for an `int64_t` argument;
C++ division truncates towards zero. -/
def Duration.fromNSec (t : Int) : Out Duration :=
  Duration.mk' (toI32 (t.tdiv 1000000000)) (toI32 (t.tmod 1000000000))

/-- `DurationBase::fromSec` without `HAVE_TRUNC` (implementation/Duration.hpp:52-66); the final
cast truncates.  A value whose seconds do not fit `int32_t` is undefined. -/
def Duration.fromSec (d : ℚ) : Out Duration :=
  let s : Int := if 0 ≤ d then ⌊d⌋ else ⌊d⌋ + 1
  let f : ℚ := (d - s) * 1000000000
  if FitsI32 s then .ok ⟨s, if 0 ≤ f then ⌊f⌋ else ⌈f⌉⟩ else .ub

/-- `TimeBase::fromSec` (Time.hpp:155-159); `boost::math::round` rounds halves away from zero,
which is `⌊x + 1/2⌋` for the non-negative argument here.  Seconds outside `uint32_t` are undefined. -/
def Time.fromSec (t : ℚ) : Out Time :=
  if FitsU32 ⌊t⌋ then .ok ⟨⌊t⌋, ⌊(t - ⌊t⌋) * 1000000000 + 1 / 2⌋⟩ else .ub

end Kalibr.AslamTime
