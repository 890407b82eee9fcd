import Verif.Tactics
import Verif.Time.Props
import Verif.KeyTime.Model

/-!
# Times of keypoints (C108)
-/

namespace Kalibr.KeyTime

open Kalibr.AslamTime

instance (t : Time) : Decidable t.Stored := by unfold Time.Stored; infer_instance
instance (t : Time) : Decidable t.Normal := by unfold Time.Normal; infer_instance

/-! ## Specification -/

/-- Specification: the time in seconds after the image at which a row is read. -/
def delay (s : Shutter) (row : ℚ) : ℚ :=
  match s with
  | .global => 0
  | .rolling d => d * row

/-- Specification: seconds of a time. -/
def seconds (t : Time) : ℚ := t.sec + t.nsec / 10 ^ 9

/-- Specification: the delay in whole nanoseconds, rounded towards zero. -/
def nanos (x : ℚ) : Int := if 0 ≤ x then ⌊x * 10 ^ 9⌋ else ⌈x * 10 ^ 9⌉

/-- Specification: the delay is short enough for a `Duration`. -/
def Short (x : ℚ) : Prop := |x| < 2 ^ 31

theorem nanos_spec (x : ℚ) : (0 ≤ x → nanos x ≤ x * 10 ^ 9 ∧ x * 10 ^ 9 < nanos x + 1 ∧ 0 ≤ nanos x) ∧
    (x < 0 → x * 10 ^ 9 ≤ nanos x ∧ nanos x - 1 < x * 10 ^ 9 ∧ nanos x ≤ 0) := by
  refine ⟨fun h => ?_, fun h => ?_⟩
  · simp only [nanos, h, if_true]
    exact ⟨Int.floor_le _, Int.lt_floor_add_one _, Int.floor_nonneg.2 (by positivity)⟩
  · simp only [nanos, not_le.2 h, if_false]
    refine ⟨Int.le_ceil _, by linarith [Int.ceil_lt_add_one (x * 10 ^ 9)], ?_⟩
    exact Int.ceil_le.2 (by push_cast; linarith)

theorem nanos_mono {x y : ℚ} (h : x ≤ y) : nanos x ≤ nanos y := by
  by_cases hx : 0 ≤ x
  · simp only [nanos, hx, hx.trans h, if_true]
    exact Int.floor_mono (by linarith)
  · by_cases hy : 0 ≤ y
    · have h1 := ((nanos_spec x).2 (not_le.1 hx)).2.2
      have h2 := ((nanos_spec y).1 hy).2.2
      omega
    · simp only [nanos, hx, hy, if_false]
      exact Int.ceil_mono (by linarith)

theorem fromSec_ok {x : ℚ} (h : Short x) :
    ∃ d, Duration.fromSec x = .ok d ∧ d.Stored ∧ durTotal d = nanos x := by
  obtain ⟨h1, h2⟩ := abs_lt.1 h
  by_cases hx : 0 ≤ x
  · have hs : FitsI32 ⌊x⌋ := by
      refine ⟨le_trans (by norm_num) (Int.floor_nonneg.2 hx), ?_⟩
      have : ⌊x⌋ < 2147483648 := Int.floor_lt.2 (by push_cast; linarith)
      omega
    have hf : 0 ≤ (x - ⌊x⌋) * 1000000000 := mul_nonneg (sub_nonneg.2 (Int.floor_le x)) (by norm_num)
    refine ⟨⟨⌊x⌋, ⌊(x - ⌊x⌋) * 1000000000⌋⟩, ?_, ⟨hs, ?_⟩, ?_⟩
    · simp only [Duration.fromSec, hx, if_true, hs, hf]
    · have h3 : (0 : Int) ≤ ⌊(x - ⌊x⌋) * 1000000000⌋ := Int.floor_nonneg.2 hf
      have h4 : ⌊(x - ⌊x⌋) * 1000000000⌋ < 1000000000 :=
        Int.floor_lt.2 (by have := Int.lt_floor_add_one x; push_cast; linarith)
      constructor <;> simp only <;> omega
    · simp only [durTotal, nanos, hx, if_true]
      have : (x - ⌊x⌋) * 1000000000 = x * 10 ^ 9 - ((⌊x⌋ * 10 ^ 9 : Int) : ℚ) := by push_cast; ring
      rw [this, Int.floor_sub_intCast]
      ring
  · have hx' := not_le.1 hx
    have hs : FitsI32 (⌊x⌋ + 1) := by
      have h3 : ⌊x⌋ < 0 := Int.floor_lt.2 (by simpa using hx')
      have h4 : -2147483649 < ⌊x⌋ + 1 := by
        have : -2147483648 ≤ ⌊x⌋ := Int.le_floor.2 (by push_cast; linarith)
        omega
      constructor <;> omega
    have hlt : (x - (⌊x⌋ + 1 : Int)) * 1000000000 < 0 := by
      have := Int.lt_floor_add_one x
      push_cast
      nlinarith
    have hf : ¬ 0 ≤ (x - (⌊x⌋ + 1 : Int)) * 1000000000 := not_le.2 hlt
    refine ⟨⟨⌊x⌋ + 1, ⌈(x - (⌊x⌋ + 1 : Int)) * 1000000000⌉⟩, ?_, ⟨hs, ?_⟩, ?_⟩
    · simp only [Duration.fromSec, hx, if_false, hs, if_true, hf]
    · have h3 : ⌈(x - (⌊x⌋ + 1 : Int)) * 1000000000⌉ ≤ 0 := Int.ceil_le.2 (by push_cast at *; linarith)
      have h4 : -1000000001 < ⌈(x - (⌊x⌋ + 1 : Int)) * 1000000000⌉ :=
        Int.lt_ceil.2 (by have := Int.floor_le x; push_cast; linarith)
      constructor <;> simp only <;> omega
    · simp only [durTotal, nanos, hx, if_false]
      have : (x - (⌊x⌋ + 1 : Int)) * 1000000000 = x * 10 ^ 9 - (((⌊x⌋ + 1) * 10 ^ 9 : Int) : ℚ) := by push_cast; ring
      rw [this, Int.ceil_sub_intCast]
      ring

theorem offset_eq (s : Shutter) (row : ℚ) : s.temporalOffset row = Duration.fromSec (delay s row) := by
  cases s <;> rfl

theorem toSec_eq (t : Time) : toSec t = (timeTotal t : ℚ) / 10 ^ 9 := by
  simp only [toSec, timeTotal]; push_cast; ring

theorem seconds_eq (t : Time) : seconds t = (timeTotal t : ℚ) / 10 ^ 9 := by
  simp only [seconds, timeTotal]; push_cast; ring

/-- The time of a keypoint in nanoseconds. -/
def total (s : Shutter) (stamp : Time) (row : ℚ) : Int := timeTotal stamp + nanos (delay s row)

/-- Specification: the time can be represented. -/
def InRange (s : Shutter) (stamp : Time) (row : ℚ) : Prop :=
  0 ≤ total s stamp row ∧ total s stamp row < 2 ^ 31 * 10 ^ 9

theorem add_cases {stamp : Time} (hs : stamp.Stored) {s : Shutter} {row : ℚ} (h : Short (delay s row)) :
    (¬ InRange s stamp row ∧ frameTime s stamp row = .raise) ∨
    (InRange s stamp row ∧ ∃ r, frameTime s stamp row = .ok r ∧ r.Normal ∧ timeTotal r = total s stamp row) := by
  obtain ⟨d, h1, h2, h3⟩ := fromSec_ok h
  have e : frameTime s stamp row = stamp.add d := by simp only [frameTime, offset_eq, h1, Out.ok_bind]
  rw [e]
  rcases C01_add_exact stamp d hs h2 with ⟨h4, h5⟩ | ⟨h4, r, h5, h6, h7⟩
  · left
    refine ⟨fun h => ?_, h4⟩
    rw [h3] at h5
    unfold InRange total at h
    omega
  · right
    rw [h3] at h4 h7
    refine ⟨?_, r, h5, h6, h7⟩
    unfold InRange total
    omega

theorem node_of_frame {s : Shutter} {stamp : Time} {row : ℚ} :
    nodeValue s stamp row = (frameTime s stamp row).bind fun t => .ok (toSec t) := by
  unfold nodeValue frameTime
  cases s.temporalOffset row <;> rfl

theorem node_ok {s : Shutter} {stamp : Time} {row t : ℚ} (hs : stamp.Stored) (hd : Short (delay s row))
    (h : nodeValue s stamp row = .ok t) : t = (total s stamp row : ℚ) / 10 ^ 9 := by
  rw [node_of_frame] at h
  rcases add_cases hs hd with ⟨-, h1⟩ | ⟨-, r, h1, h2, h3⟩
  · rw [h1] at h; simp [Out.bind] at h
  · rw [h1] at h
    rw [← Out.ok.inj h, toSec_eq, h3]

/-- **C108** (the time of a keypoint).  For every stamp of an image, every shutter and every row whose delay fits a
`Duration`, the time of the keypoint is either refused, exactly when it is before zero or after the largest time, or it
differs from the stamp plus line delay times row by less than a nanosecond, and lies between the stamp and that sum. -/
theorem C108_time (s : Shutter) (stamp : Time) (row : ℚ) (hs : stamp.Stored) (hd : Short (delay s row)) :
    (¬ InRange s stamp row ∧ nodeValue s stamp row = .raise) ∨
    (InRange s stamp row ∧ ∃ t, nodeValue s stamp row = .ok t ∧
      |t - (seconds stamp + delay s row)| < 1 / 10 ^ 9 ∧
      (0 ≤ delay s row → seconds stamp ≤ t ∧ t ≤ seconds stamp + delay s row) ∧
      (delay s row ≤ 0 → seconds stamp + delay s row ≤ t ∧ t ≤ seconds stamp)) := by
  rw [node_of_frame]
  rcases add_cases hs hd with ⟨h0, h1⟩ | ⟨h0, r, h1, h2, h3⟩
  · exact .inl ⟨h0, by rw [h1]; rfl⟩
  · refine .inr ⟨h0, toSec r, by rw [h1]; rfl, ?_⟩
    have e : toSec r = seconds stamp + (nanos (delay s row) : ℚ) / 10 ^ 9 := by
      rw [toSec_eq, h3, seconds_eq, total]; push_cast; ring
    rw [e]
    generalize delay s row = x
    have key (y : ℚ) : y / 10 ^ 9 * 10 ^ 9 = y := by field_simp
    have hn := key (nanos x)
    generalize (nanos x : ℚ) / 10 ^ 9 = w at hn
    obtain ⟨k1, k2⟩ := nanos_spec x
    rcases le_or_gt 0 x with hx | hx
    · obtain ⟨a1, a2, a3⟩ := k1 hx
      have a3 : (0 : ℚ) ≤ nanos x := by exact_mod_cast a3
      rw [← hn] at a1 a2 a3
      refine ⟨abs_lt.2 ⟨by linarith, by linarith⟩, fun _ => ⟨by linarith, by linarith⟩, fun h => ?_⟩
      have : x = 0 := le_antisymm h hx
      subst this
      constructor <;> linarith
    · obtain ⟨a1, a2, a3⟩ := k2 hx
      have a3 : (nanos x : ℚ) ≤ 0 := by exact_mod_cast a3
      rw [← hn] at a1 a2 a3
      exact ⟨abs_lt.2 ⟨by linarith, by linarith⟩, fun h => absurd h (not_le.2 hx), fun _ => ⟨by linarith, by linarith⟩⟩

/-- **C108** (whole nanoseconds).  A delay that is a whole number of nanoseconds is added exactly. -/
theorem C108_exact (s : Shutter) (stamp : Time) (row t : ℚ) (n : Int) (hs : stamp.Stored) (hd : Short (delay s row))
    (hn : delay s row = n / 10 ^ 9) (h : nodeValue s stamp row = .ok t) : t = seconds stamp + delay s row := by
  have e : nanos (delay s row) = n := by
    have : delay s row * 10 ^ 9 = n := by rw [hn]; field_simp
    unfold nanos
    rw [this]
    split_ifs <;> simp
  rw [node_ok hs hd h, seconds_eq, total, e, hn]
  push_cast; ring

/-- **C108** (the frame and the expression agree), as instants and when they are refused. -/
theorem C108_frame (s : Shutter) (stamp : Time) (row : ℚ) :
    nodeValue s stamp row = match frameTime s stamp row with
      | .ok t => .ok (seconds t)
      | .raise => .raise
      | .ub => .ub := by
  rw [node_of_frame]
  cases frameTime s stamp row with
  | ok t => simp only [Out.bind, toSec_eq, seconds_eq]
  | raise => rfl
  | ub => rfl

/-- **C108** (order of the rows).  A keypoint with a longer delay never has an earlier time; in particular rows further
down are not earlier when the line delay is not negative. -/
theorem C108_monotone (s : Shutter) (stamp : Time) (row row' t t' : ℚ) (hs : stamp.Stored) (hd : Short (delay s row))
    (hd' : Short (delay s row')) (hle : delay s row ≤ delay s row') (h : nodeValue s stamp row = .ok t)
    (h' : nodeValue s stamp row' = .ok t') : t ≤ t' := by
  rw [node_ok hs hd h, node_ok hs hd' h']
  have : (total s stamp row : ℚ) ≤ total s stamp row' := by
    exact_mod_cast Int.add_le_add_left (nanos_mono hle) _
  linarith

/-- **C108** (global shutter).  Every keypoint has the time of the image. -/
theorem C108_global (stamp : Time) (row : ℚ) (hs : stamp.Stored) (hmax : timeTotal stamp < 2 ^ 31 * 10 ^ 9) :
    nodeValue .global stamp row = .ok (seconds stamp) := by
  rcases C108_time .global stamp row hs (by simp [Short, delay]) with ⟨h, -⟩ | ⟨-, t, h1, -, h2, -⟩
  · refine absurd ⟨?_, ?_⟩ h
    · have := hs.1.1; have := hs.2.1
      simp only [total, delay, nanos, timeTotal]; simp; omega
    · simpa [total, delay, nanos] using hmax
  · have := h2 le_rfl
    rw [h1]
    simp only [delay, add_zero] at this
    rw [le_antisymm this.2 this.1]

/-- **C108** (when the shutter is estimated).  The expression follows the shutter: its value is that of the shutter when
it is evaluated.  Otherwise it is a number, which later changes of the shutter do not change. -/
theorem C108_expression (s s' : Shutter) (stamp : Time) (row : ℚ) :
    (∃ e, keypointTime true s stamp row = .ok e ∧ e.value s' = nodeValue s' stamp row) ∧
    (∀ e, keypointTime false s stamp row = .ok e → e.value s' = nodeValue s stamp row ∧ e.jacobian s' = .ok []) ∧
    (∀ t, nodeValue s stamp row = .ok t → ∃ e, keypointTime false s stamp row = .ok e) := by
  refine ⟨⟨_, rfl, rfl⟩, fun e h => ?_, fun t h => ?_⟩
  · simp only [keypointTime, Bool.false_eq_true, if_false] at h
    obtain ⟨d, h1, h2⟩ := Out.bind_eq_ok.mp h
    obtain ⟨u, h3, h4⟩ := Out.bind_eq_ok.mp h2
    cases Out.ok.inj h4
    exact ⟨by simp [TimeExpr.value, nodeValue, h1, h3], rfl⟩
  · simp only [nodeValue] at h
    obtain ⟨d, h1, h2⟩ := Out.bind_eq_ok.mp h
    obtain ⟨u, h3, h4⟩ := Out.bind_eq_ok.mp h2
    exact ⟨.number (toSec u), by simp [keypointTime, h1, h3]⟩

/-- **C108** (Jacobian), up to the rounding to nanoseconds: for every update of the line delay the time changes by the
Jacobian times the update, with an error of less than two nanoseconds. -/
theorem C108_jacobian_partial (d δ : ℚ) (stamp : Time) (row t t' : ℚ) (hs : stamp.Stored)
    (hd : Short (delay (.rolling d) row)) (hd' : Short (delay ((Shutter.rolling d).update δ) row))
    (h : (TimeExpr.node stamp row).value (.rolling d) = .ok t)
    (h' : (TimeExpr.node stamp row).value ((Shutter.rolling d).update δ) = .ok t') :
    ∃ J, (TimeExpr.node stamp row).jacobian (.rolling d) = .ok [J] ∧ |t' - (t + J * δ)| < 2 / 10 ^ 9 := by
  refine ⟨row, rfl, ?_⟩
  have e1 := C108_time _ _ _ hs hd
  have e2 := C108_time _ _ _ hs hd'
  simp only [TimeExpr.value] at h h'
  rw [h] at e1
  rw [h'] at e2
  rcases e1 with ⟨-, e1⟩ | ⟨-, u, e1, b1, -⟩
  · cases e1
  rcases e2 with ⟨-, e2⟩ | ⟨-, u', e2, b2, -⟩
  · cases e2
  cases Out.ok.inj e1
  cases Out.ok.inj e2
  simp only [Shutter.update, delay] at b1 b2
  obtain ⟨a1, a2⟩ := abs_lt.1 b1
  obtain ⟨a3, a4⟩ := abs_lt.1 b2
  refine abs_lt.2 ⟨?_, ?_⟩ <;> nlinarith

/-- **C108** (Jacobian) is false of the rounded times: near a line delay of zero the time does not change at all, while
the Jacobian is the row. -/
theorem C108_jacobian_counterexample :
    ∃ (d row : ℚ) (stamp : Time) (t : ℚ), stamp.Normal ∧ row ≠ 0 ∧
      (TimeExpr.node stamp row).jacobian (.rolling d) = .ok [row] ∧
      ∀ δ, |δ| < 1 / 10 ^ 12 → (TimeExpr.node stamp row).value ((Shutter.rolling d).update δ) = .ok t := by
  refine ⟨0, 240, ⟨10, 5⟩, 10 + 5 / 10 ^ 9, by decide +kernel, by norm_num, rfl, fun δ hδ => ?_⟩
  obtain ⟨h1, h2⟩ := abs_lt.1 hδ
  have hd : Short (delay (Shutter.rolling (0 + δ)) 240) := by
    simp only [Short, delay]
    rw [abs_lt]; constructor <;> linarith
  have hn : nanos (delay (Shutter.rolling (0 + δ)) 240) = 0 := by
    rw [show delay (Shutter.rolling (0 + δ)) 240 = (0 + δ) * 240 from rfl]
    unfold nanos
    split
    · rename_i h
      rw [Int.floor_eq_zero_iff]; constructor <;> linarith
    · rename_i h
      rw [Int.ceil_eq_zero_iff]; constructor <;> linarith
  have hr : InRange (.rolling (0 + δ)) ⟨10, 5⟩ 240 := by
    unfold InRange total
    rw [hn]
    decide
  rcases C108_time (.rolling (0 + δ)) ⟨10, 5⟩ 240 (by decide +kernel) hd with ⟨h, -⟩ | ⟨-, t, h, -⟩
  · exact absurd hr h
  · simp only [TimeExpr.value, Shutter.update]
    rw [h, node_ok (by decide +kernel) hd h, total, hn]
    norm_num [timeTotal]

/-- **C108** (Jacobian) fails for global shutters whose design variable is active: evaluating the Jacobians raises, for
every stamp and row. -/
theorem C108_global_jacobian_counterexample (stamp : Time) (row : ℚ) :
    ∃ e, keypointTime true .global stamp row = .ok e ∧ e.jacobian .global = .raise := ⟨_, rfl, rfl⟩

/-- **C108** (offsets).  The expression of the offset alone is within a nanosecond of line delay times row when that is
not negative, and is refused when it is a nanosecond or more below zero. -/
theorem C108_offset_partial (s : Shutter) (row : ℚ) (hd : Short (delay s row)) :
    (0 ≤ delay s row → ∃ t, (do let e ← temporalOffset true s row; e.value s) = .ok t ∧ |t - delay s row| < 1 / 10 ^ 9) ∧
    (delay s row ≤ - 1 / 10 ^ 9 → (do let e ← temporalOffset true s row; e.value s) = .raise) := by
  have e : (do let e ← temporalOffset true s row; e.value s) = nodeValue s ⟨0, 0⟩ row := rfl
  rw [e]
  have hst : (⟨0, 0⟩ : Time).Stored := by decide +kernel
  obtain ⟨k1, k2⟩ := nanos_spec (delay s row)
  obtain ⟨l1, l2⟩ := abs_lt.1 hd
  refine ⟨fun h => ?_, fun h => ?_⟩
  · rcases C108_time s ⟨0, 0⟩ row hst hd with ⟨h0, -⟩ | ⟨-, t, h1, h2, -⟩
    · refine absurd ⟨?_, ?_⟩ h0
      · simpa [total, timeTotal] using (k1 h).2.2
      · have : (nanos (delay s row) : ℚ) < (2 ^ 31 * 10 ^ 9 : Int) := by push_cast; linarith [(k1 h).1]
        have : nanos (delay s row) < 2 ^ 31 * 10 ^ 9 := by exact_mod_cast this
        simpa [total, timeTotal] using this
    · exact ⟨t, h1, by simpa [seconds] using h2⟩
  · rcases C108_time s ⟨0, 0⟩ row hst hd with ⟨-, h1⟩ | ⟨h0, -⟩
    · exact h1
    · have h1 : 0 ≤ nanos (delay s row) := by simpa [total, timeTotal] using h0.1
      have h2 := k2 (by linarith)
      have h3 : (nanos (delay s row) : ℚ) < 0 := by
        have : nanos (delay s row) = 0 := le_antisymm h2.2.2 h1
        rw [this] at h2
        push_cast at h2
        linarith
      have : nanos (delay s row) < 0 := by exact_mod_cast h3
      omega

/-- Witness for the hypotheses above: a row of an image of a rolling shutter. -/
example : (Time.mk 1500000000 123456789).Stored ∧ Short (delay (.rolling (3 / 10 ^ 5)) 400) ∧
    InRange (.rolling (3 / 10 ^ 5)) ⟨1500000000, 123456789⟩ 400 ∧
    ∃ t, nodeValue (.rolling (3 / 10 ^ 5)) ⟨1500000000, 123456789⟩ 400 = .ok t := by
  have h1 : (Time.mk 1500000000 123456789).Stored := by decide +kernel
  have h2 : Short (delay (.rolling (3 / 10 ^ 5)) 400) := by
    simp only [Short, delay]; rw [abs_lt]; constructor <;> norm_num
  have h3 : InRange (.rolling (3 / 10 ^ 5)) ⟨1500000000, 123456789⟩ 400 := by
    have : nanos (delay (.rolling (3 / 10 ^ 5)) 400) = 12000000 := by decide +kernel
    unfold InRange total
    rw [this]
    decide
  refine ⟨h1, h2, h3, ?_⟩
  rcases C108_time _ _ _ h1 h2 with ⟨h, -⟩ | ⟨-, t, h, -⟩
  · exact absurd h3 h
  · exact ⟨t, h⟩

end Kalibr.KeyTime
