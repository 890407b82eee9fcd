import Verif.Common
import Verif.Tactics
import Mathlib.Algebra.Order.Round
import Mathlib.Data.Rat.Floor

/-!
# Fixed point numbers (C153)

Source: `/repo/aslam_optimizer/aslam_backend_expressions/include/aslam_backend_expressions/FixedPointNumber.hpp`, the type
`FixedPointNumber<Integer, Divider>` for integers of `w` = 8, 16 or 32 bits.

Simplifications: `double` is exact (a rational number).  Conversions of an integer to a type with fewer bits keep the low bits,
as the compilers do.  Sums and differences are computed in `int`, which has 32 bits and must not overflow; products and
quotients are computed in a type of twice the width, where they fit.  The type for 64 bits computes products in
`long double` and is not modelled.
-/

namespace Kalibr.Generic.Fixed

/-- What an integer type of `w` bits can hold. -/
def Fits (w : ℕ) (x : Int) : Prop := -2 ^ (w - 1) ≤ x ∧ x < 2 ^ (w - 1)

instance (w : ℕ) (x : Int) : Decidable (Fits w x) := by unfold Fits; infer_instance

/-- `(Integer)`: conversion to a type of `w` bits. -/
def narrow (w : ℕ) (x : Int) : Int := Int.bmod x (2 ^ w)

/-- An operation in `int` and the conversion of its result. -/
def arith (w : ℕ) (x : Int) : Out Int := if Fits 32 x then .ok (narrow w x) else .ub

/-- The conversion of a number to an integer: digits are dropped. -/
def trunc (x : ℚ) : Int := if 0 ≤ x then ⌊x⌋ else ⌈x⌉

/-- The constructor from `double`, `FixedPointNumber.hpp` 60. -/
def ofDouble (w D : ℕ) (x : ℚ) : Out Int := if Fits w (trunc (x * D)) then .ok (trunc (x * D)) else .ub

/-- `operator double`, `FixedPointNumber.hpp` 72. -/
def toDouble (D : ℕ) (p : Int) : ℚ := (p : ℚ) / D

/-- The constructor from a number with the divider `D'`, `FixedPointNumber.hpp` 62-63: dividers are `uintmax_t`, so the
computation is one modulo `2^64`. -/
def convert (w D D' : ℕ) (p : Int) : Int := narrow w ((p % 2 ^ 64 * D) % 2 ^ 64 / D')

/-- `operator -()`, `FixedPointNumber.hpp` 78-80. -/
def neg (w : ℕ) (p : Int) : Out Int := arith w (-p)

/-- `operator +`, `FixedPointNumber.hpp` 82-84, and `+=`, 85-88. -/
def add (w : ℕ) (p q : Int) : Out Int := arith w (p + q)

/-- `operator -`, `FixedPointNumber.hpp` 90-92, and `-=`, 93-96. -/
def sub (w : ℕ) (p q : Int) : Out Int := arith w (p - q)

/-- `operator *`, `FixedPointNumber.hpp` 98-100, and `*=`, 101-104. -/
def mul (w D : ℕ) (p q : Int) : Out Int := .ok (narrow w ((p * q).tdiv D))

/-- `operator /`, `FixedPointNumber.hpp` 106-108, and `/=`, 109-112. -/
def div (w D : ℕ) (p q : Int) : Out Int := if q = 0 then .ub else .ok (narrow w ((p * D).tdiv q))

/-- `operator ==`, `FixedPointNumber.hpp` 114-116. -/
def eq (p q : Int) : Bool := p == q

/-! ## Specification -/

/-- `r` is `x` with the digits below `1 / D` dropped. -/
def Dropped (D : ℕ) (x : ℚ) (r : Int) : Prop :=
  |x - toDouble D r| < 1 / D ∧ |toDouble D r| ≤ |x| ∧ (0 < x → 0 ≤ toDouble D r) ∧ (x < 0 → toDouble D r ≤ 0)

/-- Numbers whose digits may be dropped and the result is one the type can hold. -/
def InRange (w D : ℕ) (x : ℚ) : Prop := toDouble D (-2 ^ (w - 1)) - 1 / D < x ∧ x < toDouble D (2 ^ (w - 1))

/-! ## Proofs -/

theorem narrow_fits {w : ℕ} (hw : 0 < w) {x : Int} (h : Fits w x) : narrow w x = x := by
  unfold narrow Fits at *
  obtain ⟨v, rfl⟩ : ∃ v, w = v + 1 := ⟨w - 1, by omega⟩
  rw [Nat.add_sub_cancel] at h
  apply Int.bmod_eq_of_le
  · have : ((2 ^ (v + 1) : ℕ) : Int) / 2 = 2 ^ v := by push_cast; rw [pow_succ]; omega
    omega
  · have : (((2 ^ (v + 1) : ℕ) : Int) + 1) / 2 = 2 ^ v := by push_cast; rw [pow_succ]; omega
    omega

theorem fits_32 {w : ℕ} (hw : w ≤ 32) {x : Int} (h : Fits w x) : Fits 32 x := by
  unfold Fits at *
  have h1 : (2 : Int) ^ (w - 1) ≤ 2 ^ (32 - 1) := pow_le_pow_right₀ (by norm_num) (by omega)
  omega

theorem arith_fits {w : ℕ} (hw : 0 < w) (hw' : w ≤ 32) {x : Int} (h : Fits w x) : arith w x = .ok x := by
  unfold arith
  rw [if_pos (fits_32 hw' h), narrow_fits hw h]

/-- C153: the sum is exact whenever the type can hold it. -/
theorem C153_sum (w D : ℕ) (hw : 0 < w) (hw' : w ≤ 32) (p q : Int) :
    (Fits w (p + q) → ∃ r, add w p q = .ok r ∧ toDouble D r = toDouble D p + toDouble D q) ∧
    (Fits w (p - q) → ∃ r, sub w p q = .ok r ∧ toDouble D r = toDouble D p - toDouble D q) ∧
    (Fits w (-p) → ∃ r, neg w p = .ok r ∧ toDouble D r = -toDouble D p) := by
  refine ⟨fun h => ⟨_, arith_fits hw hw' h, ?_⟩, fun h => ⟨_, arith_fits hw hw' h, ?_⟩, fun h => ⟨_, arith_fits hw hw' h, ?_⟩⟩
  all_goals
    unfold toDouble
    push_cast
    ring

theorem trunc_dropped (D : ℕ) (hD : 0 < D) (x : ℚ) : Dropped D x (trunc (x * D)) := by
  have hD' : (0 : ℚ) < D := by exact_mod_cast hD
  unfold Dropped toDouble trunc
  by_cases h : 0 ≤ x * D
  · have hx : 0 ≤ x := by by_contra h'; push Not at h'; nlinarith
    rw [if_pos h]
    have h1 := Int.floor_le (x * D)
    have h2 := Int.lt_floor_add_one (x * D)
    have h3 : (0 : ℚ) ≤ ⌊x * D⌋ := by exact_mod_cast Int.floor_nonneg.2 h
    have h4 : (⌊x * D⌋ : ℚ) / D ≤ x := by rw [div_le_iff₀ hD']; exact h1
    have h5 : x - (⌊x * D⌋ : ℚ) / D < 1 / D := by
      rw [sub_lt_iff_lt_add, ← add_div, lt_div_iff₀ hD']; linarith
    have h6 : (0 : ℚ) ≤ (⌊x * D⌋ : ℚ) / D := div_nonneg h3 hD'.le
    refine ⟨?_, ?_, fun _ => h6, fun h' => absurd hx (not_le.2 h')⟩
    · rw [abs_of_nonneg (by linarith)]; exact h5
    · rw [abs_of_nonneg h6, abs_of_nonneg hx]; exact h4
  · have hx : x < 0 := by by_contra h'; push Not at h'; exact h (mul_nonneg h' hD'.le)
    rw [if_neg h]
    push Not at h
    have h1 := Int.le_ceil (x * D)
    have h2 := Int.ceil_lt_add_one (x * D)
    have h3 : (⌈x * D⌉ : ℚ) ≤ 0 := by exact_mod_cast Int.ceil_le.2 (by simpa using h.le)
    have h4 : x ≤ (⌈x * D⌉ : ℚ) / D := by rw [le_div_iff₀ hD']; exact h1
    have h5 : (⌈x * D⌉ : ℚ) / D - x < 1 / D := by
      rw [sub_lt_iff_lt_add, div_lt_iff₀ hD', add_mul, div_mul_cancel₀ _ hD'.ne']; linarith
    have h6 : (⌈x * D⌉ : ℚ) / D ≤ 0 := div_nonpos_of_nonpos_of_nonneg h3 hD'.le
    refine ⟨?_, ?_, fun h' => absurd h' (not_lt.2 hx.le), fun _ => h6⟩
    · rw [abs_sub_comm, abs_of_nonneg (by linarith)]; exact h5
    · rw [abs_of_nonpos h6, abs_of_neg hx]; linarith

theorem trunc_fits (w D : ℕ) (hD : 0 < D) (x : ℚ) (h : InRange w D x) : Fits w (trunc (x * D)) := by
  have hD' : (0 : ℚ) < D := by exact_mod_cast hD
  obtain ⟨h1, h2⟩ := h
  unfold toDouble at h1 h2
  have h3 : ((-2 ^ (w - 1) : Int) : ℚ) - 1 < x * D := by
    rw [← sub_div, div_lt_iff₀ hD'] at h1; exact h1
  have h4 : x * D < ((2 ^ (w - 1) : Int) : ℚ) := by rwa [lt_div_iff₀ hD'] at h2
  have hpos : (0 : Int) < 2 ^ (w - 1) := by positivity
  unfold Fits trunc
  by_cases h : 0 ≤ x * D
  · rw [if_pos h]
    have h5 := Int.floor_nonneg.2 h
    have h6 : ⌊x * D⌋ < 2 ^ (w - 1) := Int.floor_lt.2 h4
    omega
  · rw [if_neg h]
    push Not at h
    have h5 : ⌈x * D⌉ ≤ 0 := Int.ceil_le.2 (by simpa using h.le)
    have h6 : (-2 ^ (w - 1) : Int) - 1 < ⌈x * D⌉ := Int.lt_ceil.2 (by push_cast at h3 ⊢; exact h3)
    omega

theorem tdiv_trunc (a b : Int) (hb : b ≠ 0) : a.tdiv b = trunc ((a : ℚ) / b) := by
  have key (a b : Int) (ha : 0 ≤ a) (hb : 0 < b) : a.tdiv b = ⌊(a : ℚ) / b⌋ := by
    rw [Int.tdiv_eq_ediv_of_nonneg ha]
    obtain ⟨n, rfl⟩ := Int.eq_ofNat_of_zero_le hb.le
    have := Rat.floor_intCast_div_natCast a n
    push_cast at this ⊢
    exact this.symm
  unfold trunc
  rcases le_total 0 a with ha | ha <;> rcases lt_or_gt_of_ne hb with hb' | hb'
  · have h1 := key a (-b) ha (by omega)
    rw [Int.tdiv_neg] at h1
    push_cast at h1
    rw [div_neg, Int.floor_neg] at h1
    by_cases h : 0 ≤ (a : ℚ) / b
    · rw [if_pos h]
      have h2 : (a : ℚ) / b ≤ 0 := div_nonpos_of_nonneg_of_nonpos (by exact_mod_cast ha) (by exact_mod_cast hb'.le)
      have h3 : (a : ℚ) / b = 0 := le_antisymm h2 h
      rw [h3] at h1 ⊢
      simp at h1 ⊢
      exact h1
    · rw [if_neg h]; omega
  · rw [if_pos (div_nonneg (by exact_mod_cast ha) (by exact_mod_cast hb'.le))]
    exact key a b ha hb'
  · have h1 := key (-a) (-b) (by omega) (by omega)
    rw [Int.neg_tdiv_neg] at h1
    push_cast at h1
    rw [neg_div_neg_eq] at h1
    rw [if_pos (div_nonneg_of_nonpos (by exact_mod_cast ha) (by exact_mod_cast hb'.le))]
    exact h1
  · have h1 := key (-a) b (by omega) hb'
    rw [Int.neg_tdiv] at h1
    push_cast at h1
    rw [neg_div, Int.floor_neg] at h1
    by_cases h : 0 ≤ (a : ℚ) / b
    · rw [if_pos h]
      have h2 : (a : ℚ) / b ≤ 0 := div_nonpos_of_nonpos_of_nonneg (by exact_mod_cast ha) (by exact_mod_cast hb'.le)
      have h3 : (a : ℚ) / b = 0 := le_antisymm h2 h
      rw [h3] at h1 ⊢
      simp at h1 ⊢
      exact h1
    · rw [if_neg h]; omega

/-- C153: the product is the exact product with the digits below the resolution dropped, whenever the type can hold it. -/
theorem C153_product (w D : ℕ) (hw : 0 < w) (hD : 0 < D) (p q : Int) (h : InRange w D (toDouble D p * toDouble D q)) :
    ∃ r, mul w D p q = .ok r ∧ Dropped D (toDouble D p * toDouble D q) r := by
  have hD' : (D : ℚ) ≠ 0 := by exact_mod_cast hD.ne'
  have h1 : (p * q).tdiv D = trunc (toDouble D p * toDouble D q * D) := by
    rw [tdiv_trunc _ _ (by exact_mod_cast hD.ne')]
    congr 1
    unfold toDouble
    push_cast
    field_simp
  refine ⟨_, ?_, trunc_dropped D hD _⟩
  unfold mul
  rw [h1, narrow_fits hw (trunc_fits w D hD _ h)]

/-- C153: the same for the quotient by a number that is not zero. -/
theorem C153_quotient (w D : ℕ) (hw : 0 < w) (hD : 0 < D) (p q : Int) (hq : q ≠ 0) (h : InRange w D (toDouble D p / toDouble D q)) :
    ∃ r, div w D p q = .ok r ∧ Dropped D (toDouble D p / toDouble D q) r := by
  have hD' : (D : ℚ) ≠ 0 := by exact_mod_cast hD.ne'
  have hq' : (q : ℚ) ≠ 0 := by exact_mod_cast hq
  have h1 : (p * D).tdiv q = trunc (toDouble D p / toDouble D q * D) := by
    rw [tdiv_trunc _ _ hq]
    congr 1
    unfold toDouble
    push_cast
    field_simp
  refine ⟨_, ?_, trunc_dropped D hD _⟩
  unfold div
  rw [if_neg hq, h1, narrow_fits hw (trunc_fits w D hD _ h)]

/-- C153: from a number the digits below the resolution are dropped, and a fixed point number made into a number and back is
the same; equal ones are those of equal value. -/
theorem C153_conversions (w D : ℕ) (hD : 0 < D) :
    (∀ x, InRange w D x → ∃ r, ofDouble w D x = .ok r ∧ Dropped D x r) ∧
    (∀ p, Fits w p → ofDouble w D (toDouble D p) = .ok p) ∧
    (∀ p q, eq p q = true ↔ toDouble D p = toDouble D q) := by
  have hD' : (D : ℚ) ≠ 0 := by exact_mod_cast hD.ne'
  refine ⟨fun x hx => ⟨_, by unfold ofDouble; rw [if_pos (trunc_fits w D hD x hx)], trunc_dropped D hD x⟩, fun p hp => ?_, fun p q => ?_⟩
  · have : trunc (toDouble D p * D) = p := by
      unfold toDouble trunc
      rw [div_mul_cancel₀ _ hD']
      simp
    unfold ofDouble
    rw [this, if_pos hp]
  · unfold eq toDouble
    rw [div_left_inj' hD']
    simp

/-- C153: a fixed point number that is not negative is converted to another resolution by dropping digits.  Missing: negative
numbers, see `C153_convert_counterexample`. -/
theorem C153_convert_partial (w D D' : ℕ) (hw : 0 < w) (hD : 0 < D) (hD' : 0 < D') (p : Int) (hp : 0 ≤ p) (hb : p * D < 2 ^ 64)
    (h : InRange w D (toDouble D' p)) : Dropped D (toDouble D' p) (convert w D D' p) := by
  have e1 : (D' : ℚ) ≠ 0 := by exact_mod_cast hD'.ne'
  have e2 : (p % 2 ^ 64 * D) % 2 ^ 64 = p * D := by
    have hDi : (1 : Int) ≤ D := by exact_mod_cast hD
    have : p < 2 ^ 64 := lt_of_le_of_lt (by nlinarith) hb
    rw [Int.emod_eq_of_lt hp this, Int.emod_eq_of_lt (by positivity) hb]
  have h1 : p * D / (D' : Int) = trunc (toDouble D' p * D) := by
    rw [← Int.tdiv_eq_ediv_of_nonneg (by positivity), tdiv_trunc _ _ (by exact_mod_cast hD'.ne')]
    congr 1
    unfold toDouble
    push_cast
    field_simp
  unfold convert
  rw [e2, h1, narrow_fits hw (trunc_fits w D hD _ h)]
  exact trunc_dropped D hD _

/-- C153 is false of conversions of negative numbers: a tenth below zero with one digit is not that with two. -/
theorem C153_convert_counterexample : toDouble 10 (-1) = toDouble 100 (-10) ∧ InRange 32 100 (toDouble 10 (-1)) ∧
    ¬ Dropped 100 (toDouble 10 (-1)) (convert 32 100 10 (-1)) := by
  refine ⟨by norm_num [toDouble], by norm_num [InRange, toDouble], fun h => ?_⟩
  have h1 : convert 32 100 10 (-1) = -1717986929 := by decide
  have h2 := h.2.1
  rw [h1] at h2
  norm_num [toDouble, abs_of_neg, abs_of_nonneg] at h2

example : Fits 8 (100 + 27) ∧ InRange 16 1000 (toDouble 1000 1500 * toDouble 1000 (-2500)) := by
  refine ⟨by decide, by norm_num [InRange, toDouble]⟩

end Kalibr.Generic.Fixed
