import Verif.Time.Lemmas

/-!
# Properties C01–C04 of `aslam_time`

Specification vocabulary: the *total* of a time or duration is `sec * 10^9 + nsec`
(`timeTotal`, `durTotal`), independent of the code's own `toNSec`.
-/

namespace Kalibr.AslamTime

/-- Nanoseconds since the epoch represented by the two fields. -/
def timeTotal (t : Time) : Int := t.sec * 10 ^ 9 + t.nsec
/-- Nanoseconds represented by the two fields of a duration. -/
def durTotal (d : Duration) : Int := d.sec * 10 ^ 9 + d.nsec
/-- A normalised time: fields fit and the nanoseconds are below one second. -/
def Time.Normal (t : Time) : Prop := t.Stored ∧ t.nsec < 10 ^ 9
/-- A normalised duration: fields fit and the nanoseconds are in `[0, 10^9)`. -/
def Duration.Normal (d : Duration) : Prop := d.Stored ∧ 0 ≤ d.nsec ∧ d.nsec < 10 ^ 9

/-! ## C01 -/

/-- **C01.** For every stored time and duration, `t + d` is either the exception, exactly when the
exact sum is negative or has more whole seconds than the largest `int32_t`, or a normalised time
with exactly the summed nanoseconds.  It is never undefined behaviour. -/
theorem C01_add_exact (t : Time) (d : Duration) (_ht : t.Stored) (_hd : d.Stored) :
    (t.add d = .raise ∧
      (timeTotal t + durTotal d < 0 ∨ (timeTotal t + durTotal d) / 10 ^ 9 > 2147483647)) ∨
    (¬ (timeTotal t + durTotal d < 0 ∨ (timeTotal t + durTotal d) / 10 ^ 9 > 2147483647) ∧
      ∃ r, t.add d = .ok r ∧ r.Normal ∧ timeTotal r = timeTotal t + durTotal d) := by
  have e : (t.sec + d.sec) * 1000000000 + (t.nsec + d.nsec) = timeTotal t + durTotal d := by
    unfold timeTotal durTotal; ring
  unfold Time.add
  rw [normUnsigned_eq, e]
  generalize timeTotal t + durTotal d = n
  by_cases h : n / 1000000000 < 0 ∨ n / 1000000000 > 2147483647
  · left; rw [if_pos h]; refine ⟨rfl, by omega⟩
  · right; rw [if_neg h]
    refine ⟨by omega, _, rfl, ⟨⟨?_, ?_⟩, ?_⟩, ?_⟩ <;>
      simp only [Time.mk', toU32, FitsU32, timeTotal] <;> omega

/-- Both alternatives occur: an addition with carry, and one that raises. -/
example : (Time.mk 5 900000000).add ⟨-2, 200000000⟩ = .ok ⟨4, 100000000⟩ := by
  simp [Time.add, normUnsigned_eq, Time.mk', toU32]
example : (Time.mk 5 0).add ⟨-6, 0⟩ = .raise := by
  simp [Time.add, normUnsigned_eq]
example : (Time.mk 5 900000000).Stored ∧ (Duration.mk (-2) 200000000).Stored := by
  simp [Time.Stored, Duration.Stored, FitsU32, FitsI32]

/-- **C01**, subtraction: for a normalised duration other than one whose seconds are the smallest
`int32_t` or whose negation leaves the range, `t - d` is the exact difference under the same rule. -/
theorem C01_sub_exact (t : Time) (d : Duration) (ht : t.Stored) (hd : d.Normal)
    (hmin : -2147483648 < d.sec) :
    (t.subD d = .raise ∧
      (timeTotal t - durTotal d < 0 ∨ (timeTotal t - durTotal d) / 10 ^ 9 > 2147483647)) ∨
    (¬ (timeTotal t - durTotal d < 0 ∨ (timeTotal t - durTotal d) / 10 ^ 9 > 2147483647) ∧
      ∃ r, t.subD d = .ok r ∧ r.Normal ∧ timeTotal r = timeTotal t - durTotal d) := by
  obtain ⟨⟨hs, hn⟩, h0, h1⟩ := hd
  have a1 : i32 (-d.sec) = .ok (-d.sec) := i32_ok (by unfold FitsI32 at *; omega)
  have a2 : i32 (-d.nsec) = .ok (-d.nsec) := i32_ok (by unfold FitsI32 at *; omega)
  unfold FitsI32 at hs hn
  have hneg : ∃ m : Duration, d.neg = .ok m ∧ m.Stored ∧ durTotal m = -durTotal d := by
    unfold Duration.neg Duration.mk'
    rw [a1, a2]
    simp only [Out.ok_bind, normSigned_eq]
    rw [if_neg (by omega), if_neg (by omega)]
    refine ⟨_, rfl, ⟨?_, ?_⟩, ?_⟩ <;> simp only [FitsI32, durTotal] <;> omega
  obtain ⟨m, hm, hms, hmt⟩ := hneg
  unfold Time.subD
  rw [hm, Out.ok_bind]
  have := C01_add_exact t m ht hms
  rw [hmt, ← sub_eq_add_neg] at this
  exact this

example : (Time.mk 5 0).subD ⟨2, 300000000⟩ = .ok ⟨2, 700000000⟩ := by
  simp [Time.subD, Duration.neg, Duration.mk', i32, FitsI32, normSigned_eq, Time.add,
    normUnsigned_eq, Time.mk', toU32]

/-- **C01**, construction: from any two unsigned numbers of 32 bits, whether the nanoseconds are below one second or not, the
time is normalised and has exactly their nanoseconds, if the seconds still fit; otherwise they wrap around. -/
theorem C01_construct (sec nsec : Int) (hs : 0 ≤ sec) (hn : 0 ≤ nsec) (hs' : sec < 2 ^ 32) (hn' : nsec < 2 ^ 32) :
    (Time.mk' sec nsec).Normal ∧
    (sec + nsec / 10 ^ 9 < 2 ^ 32 → timeTotal (Time.mk' sec nsec) = sec * 10 ^ 9 + nsec) ∧
    (2 ^ 32 ≤ sec + nsec / 10 ^ 9 → timeTotal (Time.mk' sec nsec) = (sec - 2 ^ 32) * 10 ^ 9 + nsec) := by
  refine ⟨⟨⟨?_, ?_⟩, ?_⟩, fun h => ?_, fun h => ?_⟩ <;>
    simp only [Time.mk', toU32, FitsU32, timeTotal] at * <;> omega

example : Time.mk' 1 3500000000 = ⟨4, 500000000⟩ := by simp [Time.mk', toU32]

/-! ## C02 -/

/-- **C02**, comparisons: for normalised times the operators are the comparisons of the totals. -/
theorem C02_compare (t u : Time) (ht : t.Normal) (hu : u.Normal) :
    (t.lt u = true ↔ timeTotal t < timeTotal u) ∧
    (t.gt u = true ↔ timeTotal t > timeTotal u) ∧
    (t.eq u = true ↔ timeTotal t = timeTotal u) ∧
    (t.le u = true ↔ timeTotal t ≤ timeTotal u) ∧
    (t.ge u = true ↔ timeTotal t ≥ timeTotal u) := by
  obtain ⟨⟨hs, hn⟩, h⟩ := ht
  obtain ⟨⟨hs', hn'⟩, h'⟩ := hu
  unfold FitsU32 at *
  unfold timeTotal
  refine ⟨?_, ?_, ?_, ?_, ?_⟩
  · unfold Time.lt; split
    · simp; omega
    · split <;> simp <;> omega
  · unfold Time.gt; split
    · simp; omega
    · split <;> simp <;> omega
  · unfold Time.eq; simp; omega
  · unfold Time.le; split
    · simp; omega
    · split <;> simp <;> omega
  · unfold Time.ge; split
    · simp; omega
    · split <;> simp <;> omega

/-- **C02**, trichotomy: exactly one of `<`, `==`, `>`; `<=`, `>=` are the unions. -/
theorem C02_trichotomy (t u : Time) (ht : t.Normal) (hu : u.Normal) :
    ((t.lt u = true ∧ t.eq u = false ∧ t.gt u = false) ∨
     (t.lt u = false ∧ t.eq u = true ∧ t.gt u = false) ∨
     (t.lt u = false ∧ t.eq u = false ∧ t.gt u = true)) ∧
    t.le u = (t.lt u || t.eq u) ∧ t.ge u = (t.gt u || t.eq u) := by
  obtain ⟨h1, h2, h3, h4, h5⟩ := C02_compare t u ht hu
  generalize t.lt u = a at *
  generalize t.gt u = b at *
  generalize t.eq u = c at *
  generalize t.le u = d at *
  generalize t.ge u = e at *
  cases a <;> cases b <;> cases c <;> cases d <;> cases e <;> simp at * <;> omega

/-- **C02**, translation: adding the same duration preserves the order whenever neither addition
raises. -/
theorem C02_add_mono (t u : Time) (d : Duration) (ht : t.Normal) (hu : u.Normal) (hd : d.Stored)
    (r s : Time) (hr : t.add d = .ok r) (hs : u.add d = .ok s) :
    r.lt s = t.lt u ∧ r.eq s = t.eq u ∧ r.le s = t.le u := by
  rcases C01_add_exact t d ht.1 hd with ⟨h, _⟩ | ⟨_, r', h, hn, hrt⟩
  · rw [h] at hr; cases hr
  rw [h] at hr; cases hr
  rcases C01_add_exact u d hu.1 hd with ⟨h, _⟩ | ⟨_, s', h, hn', hst⟩
  · rw [h] at hs; cases hs
  rw [h] at hs; cases hs
  obtain ⟨a1, _, a3, a4, _⟩ := C02_compare t u ht hu
  obtain ⟨b1, _, b3, b4, _⟩ := C02_compare r s hn hn'
  refine ⟨Bool.eq_iff_iff.2 ?_, Bool.eq_iff_iff.2 ?_, Bool.eq_iff_iff.2 ?_⟩
  · rw [a1, b1]; omega
  · rw [a3, b3]; omega
  · rw [a4, b4]; omega

example : (Time.mk 3 999999999).Normal ∧ (Time.mk 4 0).Normal ∧
    (Time.mk 3 999999999).lt ⟨4, 0⟩ = true := by
  simp [Time.Normal, Time.Stored, FitsU32, Time.lt]

/-! ## C03 — false in general -/

/-- **C03 is false**: half a second plus half a second is stored as `0 s + 10^9 ns`, which compares
different from (and smaller than) one second.  `normalizeSecNSecSigned` tests `> 10^9`. -/
theorem C03_counterexample :
    (Duration.mk 0 500000000).Normal ∧ (Duration.mk 1 0).Normal ∧
    ∃ r, (Duration.mk 0 500000000).add ⟨0, 500000000⟩ = .ok r ∧
      durTotal r = durTotal ⟨1, 0⟩ ∧ r.eq ⟨1, 0⟩ = false ∧ r.lt ⟨1, 0⟩ = true ∧ ¬ r.Normal := by
  refine ⟨by simp [Duration.Normal, Duration.Stored, FitsI32],
    by simp [Duration.Normal, Duration.Stored, FitsI32], ⟨0, 1000000000⟩, ?_, ?_⟩
  · simp [Duration.add, i32, FitsI32, Duration.mk', normSigned_eq]
  · simp [durTotal, Duration.eq, Duration.lt, Duration.Normal]

/-- **C03 is false** for construction from seconds as well: minus half a second is stored with a
negative nanosecond field. -/
theorem C03_fromSec_counterexample :
    Duration.fromSec (-1 / 2) = .ok ⟨0, -500000000⟩ := by
  have : ⌊(-1 / 2 : ℚ)⌋ = -1 := by rw [Int.floor_eq_iff]; norm_num
  have h2 : ⌈(-500000000 : ℚ)⌉ = -500000000 := by
    have := Int.ceil_intCast (R := ℚ) (-500000000); simpa using this
  unfold Duration.fromSec
  norm_num [this, FitsI32, h2]

/-- **C03** (partial: excludes nanosecond fields that are a positive multiple of one second, and
excludes `fromSec`).  The constructor either raises, exactly when the whole seconds of the exact
total do not fit `int32_t`, or returns the unique normalised duration with the exact total. -/
theorem C03_ctor_normal_partial (sec nsec : Int)
    (hbad : ¬ (0 < nsec ∧ nsec % 10 ^ 9 = 0)) :
    (Duration.mk' sec nsec = .raise ∧ ¬ FitsI32 ((sec * 10 ^ 9 + nsec) / 10 ^ 9)) ∨
    ∃ r, Duration.mk' sec nsec = .ok r ∧ r.Normal ∧ durTotal r = sec * 10 ^ 9 + nsec := by
  unfold Duration.mk'
  have hb : ¬ (0 < nsec ∧ nsec % 1000000000 = 0) := by norm_num at hbad ⊢; exact hbad
  simp only [normSigned_eq, if_neg hb]
  split
  · left; refine ⟨rfl, ?_⟩; unfold FitsI32; omega
  · right; refine ⟨_, rfl, ⟨⟨?_, ?_⟩, ?_, ?_⟩, ?_⟩ <;> simp only [FitsI32, durTotal] <;> omega

/-- **C03** (what is true of every constructor call): the total is exact, and the nanosecond field
is in `[0, 10^9]`; the off-by-one value `10^9` occurs only for the excluded inputs. -/
theorem C03_ctor_total (sec nsec : Int) (r : Duration) (h : Duration.mk' sec nsec = .ok r) :
    durTotal r = sec * 10 ^ 9 + nsec ∧ 0 ≤ r.nsec ∧ r.nsec ≤ 10 ^ 9 ∧
    (r.nsec = 10 ^ 9 ↔ 0 < nsec ∧ nsec % 10 ^ 9 = 0) := by
  unfold Duration.mk' at h
  simp only [normSigned_eq, Out.bind_eq_ok] at h
  obtain ⟨q, hq, hr⟩ := h
  cases hr
  by_cases hb : 0 < nsec ∧ nsec % 1000000000 = 0
  · simp only [if_pos hb] at hq
    split at hq <;> cases hq
    simp only [durTotal]; omega
  · simp only [if_neg hb] at hq
    split at hq <;> cases hq
    simp only [durTotal]; omega

/-- **C03** (partial), equality: normalised durations with equal totals compare equal, and the
comparison `<` is the comparison of totals. -/
theorem C03_unique_partial (d e : Duration) (hd : d.Normal) (he : e.Normal) :
    (d.eq e = true ↔ durTotal d = durTotal e) ∧ (d.lt e = true ↔ durTotal d < durTotal e) := by
  obtain ⟨_, h0, h1⟩ := hd
  obtain ⟨_, h0', h1'⟩ := he
  unfold Duration.eq Duration.lt durTotal
  refine ⟨by simp; omega, ?_⟩
  split
  · simp; omega
  · split <;> simp <;> omega

/-- **C03** (partial): sums, differences and negations of normalised durations whose exact result
stays clear of the `int32_t` limits are exact, and normalised unless the two nanosecond fields add
up to exactly one second. -/
theorem C03_arith_partial (d e : Duration) (hd : d.Normal) (he : e.Normal)
    (hadd : FitsI32 (d.sec + e.sec) ∧ FitsI32 (d.sec + e.sec + 1))
    (hsub : FitsI32 (d.sec - e.sec) ∧ FitsI32 (d.sec - e.sec - 1))
    (hneg : FitsI32 (-d.sec) ∧ FitsI32 (-d.sec - 1)) :
    (∃ r, d.add e = .ok r ∧ durTotal r = durTotal d + durTotal e ∧
      (d.nsec + e.nsec ≠ 10 ^ 9 → r.Normal)) ∧
    (∃ r, d.sub e = .ok r ∧ durTotal r = durTotal d - durTotal e ∧ r.Normal) ∧
    (∃ r, d.neg = .ok r ∧ durTotal r = - durTotal d ∧ r.Normal) := by
  obtain ⟨⟨hs, hn⟩, h0, h1⟩ := hd
  obtain ⟨⟨hs', hn'⟩, h0', h1'⟩ := he
  refine ⟨?_, ?_, ?_⟩
  · unfold Duration.add Duration.mk'
    rw [i32_ok hadd.1, i32_ok (x := d.nsec + e.nsec) (by unfold FitsI32; omega)]
    simp only [Out.ok_bind, normSigned_eq]
    unfold FitsI32 at *
    split
    · rw [if_neg (by omega)]
      refine ⟨_, rfl, ?_, ?_⟩
      · simp only [durTotal]; omega
      · intro; omega
    · rw [if_neg (by omega)]
      refine ⟨_, rfl, ?_, fun _ => ⟨⟨?_, ?_⟩, ?_, ?_⟩⟩ <;> simp only [FitsI32, durTotal] <;> omega
  · unfold Duration.sub Duration.mk'
    rw [i32_ok hsub.1, i32_ok (x := d.nsec - e.nsec) (by unfold FitsI32; omega)]
    simp only [Out.ok_bind, normSigned_eq]
    unfold FitsI32 at *
    rw [if_neg (by omega), if_neg (by omega)]
    refine ⟨_, rfl, ?_, ⟨⟨?_, ?_⟩, ?_, ?_⟩⟩ <;> simp only [FitsI32, durTotal] <;> omega
  · unfold Duration.neg Duration.mk'
    rw [i32_ok hneg.1, i32_ok (x := -d.nsec) (by unfold FitsI32; omega)]
    simp only [Out.ok_bind, normSigned_eq]
    unfold FitsI32 at *
    rw [if_neg (by omega), if_neg (by omega)]
    refine ⟨_, rfl, ?_, ⟨⟨?_, ?_⟩, ?_, ?_⟩⟩ <;> simp only [FitsI32, durTotal] <;> omega

example : (Duration.mk 3 700000000).Normal ∧
    (Duration.mk 3 700000000).add ⟨-5, 400000000⟩ = .ok ⟨-1, 100000000⟩ := by
  simp [Duration.Normal, Duration.Stored, FitsI32, Duration.add, i32, Duration.mk', normSigned_eq]

/-- `Time::fromSec` can leave a nanosecond field of `10^9` (rounding up): a related defect. -/
theorem C03_time_fromSec_counterexample :
    ∃ t, Time.fromSec (9999999999 / 10000000000) = .ok t ∧ ¬ t.Normal := by
  have h1 : ⌊(9999999999 / 10000000000 : ℚ)⌋ = 0 := by rw [Int.floor_eq_iff]; norm_num
  have h2 : ⌊(9999999999 / 10000000000 * 1000000000 + 1 / 2 : ℚ)⌋ = 1000000000 := by
    rw [Int.floor_eq_iff]; norm_num
  refine ⟨⟨0, 1000000000⟩, ?_, by simp [Time.Normal]⟩
  unfold Time.fromSec
  rw [h1, if_pos (by simp [FitsU32])]
  simp only [Int.cast_zero, sub_zero]
  rw [h2]

/-! ## C04 -/

/-- **C04**, times: `fromNSec(toNSec(t)) = t` for every normalised time. -/
theorem C04_time_roundtrip (t : Time) (ht : t.Normal) : Time.fromNSec t.toNSec = t := by
  obtain ⟨⟨hs, hn⟩, h⟩ := ht
  unfold FitsU32 at *
  obtain ⟨s, n⟩ := t
  simp only at *
  simp only [Time.fromNSec, Time.toNSec, Time.mk', toU32, toI32, Time.mk.injEq]
  omega

/-- **C04**, durations: `fromNSec(toNSec(d)) = d` for every normalised duration, negative ones
included (C++ division truncates, the normalisation repairs it). -/
theorem C04_duration_roundtrip (d : Duration) (hd : d.Normal) :
    Duration.fromNSec d.toNSec = .ok d := by
  obtain ⟨⟨hs, hn⟩, h0, h1⟩ := hd
  obtain ⟨s, n⟩ := d
  unfold FitsI32 at *
  simp only at *
  unfold Duration.fromNSec Duration.toNSec Duration.mk'
  simp only
  have key : ∀ s' n' : Int, (s * 1000000000 + n).tdiv 1000000000 = s' →
      (s * 1000000000 + n).tmod 1000000000 = n' → FitsI32 s' → FitsI32 n' → n' < 1000000000 →
      (do let q ← normSigned (toI32 ((s * 1000000000 + n).tdiv 1000000000))
                  (toI32 ((s * 1000000000 + n).tmod 1000000000))
          pure (Duration.mk q.1 q.2) : Out Duration) = .ok ⟨s, n⟩ := by
    intro s' n' hs' hn' h1 h2 h3
    have hsum := Int.tmod_add_mul_tdiv (s * 1000000000 + n) 1000000000
    rw [hs', hn'] at hsum
    rw [hs', hn', toI32_id h1, toI32_id h2, normSigned_eq]
    simp only
    rw [if_neg (c := 0 < n' ∧ n' % 1000000000 = 0) (by omega), if_neg (by omega)]
    simp only [Out.ok_bind, Out.pure_eq, Out.ok.injEq, Duration.mk.injEq]
    constructor <;> omega
  by_cases hc : s < 0 ∧ 0 < n
  · have e1 : (s * 1000000000 + n).tdiv 1000000000 = s + 1 := by
      rw [Int.tdiv_eq_ediv, if_neg (by omega), show Int.sign 1000000000 = 1 from rfl]; omega
    have e2 : (s * 1000000000 + n).tmod 1000000000 = n - 1000000000 := by
      have := Int.tmod_add_mul_tdiv (s * 1000000000 + n) 1000000000
      rw [e1] at this; omega
    exact key _ _ e1 e2 (by unfold FitsI32; omega) (by unfold FitsI32; omega) (by omega)
  · have e1 : (s * 1000000000 + n).tdiv 1000000000 = s := by
      rw [Int.tdiv_eq_ediv, if_pos (by omega)]; omega
    have e2 : (s * 1000000000 + n).tmod 1000000000 = n := by
      have := Int.tmod_add_mul_tdiv (s * 1000000000 + n) 1000000000
      rw [e1] at this; omega
    exact key _ _ e1 e2 (by unfold FitsI32; omega) (by unfold FitsI32; omega) (by omega)

example : Duration.fromNSec (Duration.toNSec ⟨-3, 250000000⟩) = .ok ⟨-3, 250000000⟩ :=
  C04_duration_roundtrip _ (by simp [Duration.Normal, Duration.Stored, FitsI32])

/-- **C04**, differences: for normalised times below `2^31` seconds (the range in which `operator+`
can return), `u + (t - u) = t`, in both orders of `t` and `u`. -/
theorem C04_sub_add (t u : Time) (ht : t.Normal) (hu : u.Normal)
    (ht31 : t.sec ≤ 2147483647) (hu31 : u.sec ≤ 2147483647) :
    ∃ d, t.sub u = .ok d ∧ durTotal d = timeTotal t - timeTotal u ∧ u.add d = .ok t := by
  obtain ⟨⟨hs, hn⟩, h⟩ := ht
  obtain ⟨⟨hs', hn'⟩, h'⟩ := hu
  unfold FitsU32 at *
  have : ∃ d : Duration, t.sub u = .ok d ∧ durTotal d = timeTotal t - timeTotal u ∧ d.Stored := by
    unfold Time.sub Duration.mk'
    rw [toI32_id (x := t.sec) (by unfold FitsI32; omega),
      toI32_id (x := u.sec) (by unfold FitsI32; omega),
      toI32_id (x := t.nsec) (by unfold FitsI32; omega),
      toI32_id (x := u.nsec) (by unfold FitsI32; omega),
      i32_ok (x := t.sec - u.sec) (by unfold FitsI32; omega),
      i32_ok (x := t.nsec - u.nsec) (by unfold FitsI32; omega)]
    simp only [Out.ok_bind, normSigned_eq]
    rw [if_neg (by omega), if_neg (by omega)]
    refine ⟨_, rfl, ?_, ?_, ?_⟩ <;> simp only [FitsI32, durTotal, timeTotal] <;> omega
  obtain ⟨d, h1, h2, h3⟩ := this
  refine ⟨d, h1, h2, ?_⟩
  rcases C01_add_exact u d ⟨hs', hn'⟩ h3 with ⟨_, hbad⟩ | ⟨_, r, hr, ⟨⟨g1, g2⟩, g3⟩, hrt⟩
  · exfalso; rw [h2] at hbad; unfold timeTotal at hbad; omega
  · rw [hr]
    obtain ⟨rs, rn⟩ := r
    obtain ⟨ts, tn⟩ := t
    rw [h2] at hrt
    unfold timeTotal FitsU32 at *
    simp only at *
    simp only [Out.ok.injEq, Time.mk.injEq]
    omega

example : (Time.mk 10 100).sub ⟨3, 200⟩ = .ok ⟨6, 999999900⟩ ∧
    (Time.mk 3 200).add ⟨6, 999999900⟩ = .ok ⟨10, 100⟩ := by
  simp [Time.sub, toI32, i32, FitsI32, Duration.mk', normSigned_eq, Time.add, normUnsigned_eq,
    Time.mk', toU32]

/-- Outside that range the difference is wrong: from 2^31 s back to 0 s is reported as a *negative*
duration (the cast to `int32_t` wraps). -/
theorem C04_sub_range_counterexample :
    ∃ d, (Time.mk 2147483648 0).sub ⟨0, 0⟩ = .ok d ∧ durTotal d < 0 := by
  refine ⟨⟨-2147483648, 0⟩, ?_, by simp [durTotal]⟩
  simp [Time.sub, toI32, i32, FitsI32, Duration.mk', normSigned_eq]

end Kalibr.AslamTime
