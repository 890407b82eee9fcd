import Verif.Archive.Lemmas
import Verif.Tactics

/-!
# Properties C05 and C06 of the portable archive

`Config.Consistent` (the build's preprocessor symbol agrees with the machine) and
`byteWidth` (number of base-256 digits of the magnitude) are the only notions used beside the model
of the writer and reader.
-/

namespace Kalibr.Archive

/-- Number of bytes needed for the magnitude of `v`: the least `k` with `|v| < 256^k`. -/
def IsByteWidth (v : Int) (k : Nat) : Prop := v.natAbs < 256 ^ k ∧ ∀ j < k, 256 ^ j ≤ v.natAbs

theorem byteLoop_isByteWidth (v : Int) (hv : v ≠ 0) : IsByteWidth v (byteLoop v.natAbs 0) := by
  obtain ⟨k, h1, h2, h3, h4⟩ := byteLoop_spec v.natAbs 0
  rw [h1, Nat.zero_add]
  refine ⟨h3, fun j hj => ?_⟩
  by_cases hk : 1 < k
  · exact le_trans (Nat.pow_le_pow_right (by norm_num) (by omega)) (h4 hk)
  · have : j = 0 := by omega
    subst this; simp; omega

theorem isByteWidth_unique {v : Int} {j k : Nat} (hj : IsByteWidth v j) (hk : IsByteWidth v k) :
    j = k := by
  rcases Nat.lt_trichotomy j k with h | h | h
  · exact absurd hj.1 (not_lt.2 (hk.2 j h))
  · exact h
  · exact absurd hk.1 (not_lt.2 (hj.2 k h))

/-- A value that fits an integer type needs no more bytes than the type has. -/
theorem byteLoop_le_of_fits (T : IntType) (hT : 1 ≤ T.bytes) (v : Int) (hv : v ≠ 0)
    (h : T.Fits v) : byteLoop v.natAbs 0 ≤ T.bytes := by
  by_contra hc
  have hw := (byteLoop_isByteWidth v hv).2 T.bytes (by omega)
  have e : (256 : Nat) ^ T.bytes = 2 ^ (8 * T.bytes) := by
    rw [Nat.pow_mul]
  have h2 : (2 : Int) ^ (8 * T.bytes) = 2 * (2 : Int) ^ (8 * T.bytes - 1) := by
    rw [← pow_succ']; congr 1; omega
  have hpos : (0 : Int) < (2 : Int) ^ (8 * T.bytes - 1) := by positivity
  have : ((2 : Int) ^ (8 * T.bytes)) ≤ (v.natAbs : Int) := by
    rw [e] at hw; exact_mod_cast hw
  unfold IntType.Fits at h
  split at h <;> omega

/-! ## C05 -/

/-- **C05** (partial: for builds whose `BOOST_ENDIAN_BIG_BYTE` agrees with the machine, and not for
the smallest `intmax_t`, whose negation is undefined).
Any value `v` written by one machine is read back unchanged by any machine, of either byte order,
for either explicit stream byte order (or the native one, on machines of the same byte order), into
any integer type that can hold it; exactly the written bytes are consumed. -/
theorem C05_roundtrip_partial (cw cr : Config) (hw : cw.Consistent) (hr : cr.Consistent) (f : Flag)
    (hf : f ≠ .native ∨ cw.machine = cr.machine) (v : Int)
    (hv : -9223372036854775808 < v ∧ v < 9223372036854775808)
    (T : IntType) (hT : 1 ≤ T.bytes) (hfit : T.Fits v) (rest : List Nat) :
    ∃ bs, save cw f v = .ok bs ∧ load cr f T (bs ++ rest) = .ok (v, rest) := by
  have hl : v.natAbs < 9223372036854775808 := by omega
  obtain ⟨bs, hbs⟩ : ∃ bs, save cw f v = .ok bs := by
    by_cases h0 : v = 0
    · exact ⟨_, by simp [save, h0]; rfl⟩
    · exact ⟨_, save_eq cw hw f v h0 hl⟩
  refine ⟨bs, hbs, ?_⟩
  unfold load
  rw [loadImpl_save cw cr hw hr f hf v hl T.bytes rest bs hbs, if_neg]
  · simp [cast_of_fits T hT v hfit]
  · rintro ⟨h0, h1⟩
    have := byteLoop_le_of_fits T hT v h0 hfit
    omega

/-- The two consistent configurations and a 32-bit reader. -/
example : (Config.mk .little false).Consistent ∧ (Config.mk .big true).Consistent ∧
    (IntType.mk 4 true).Fits (-70000) := by
  simp [Config.Consistent, IntType.Fits]

/-- **C05 is false in the build the repository actually has on a little-endian machine**: the code
tests `#ifdef BOOST_ENDIAN_BIG_BYTE`, which Boost.Predef always defines.  Then 5 is read back as 0,
for every stream flag. -/
theorem C05_predef_counterexample (f : Flag) (rest : List Nat) :
    ∃ bs, save ⟨.little, true⟩ f 5 = .ok bs ∧
      load ⟨.little, true⟩ f ⟨4, true⟩ (bs ++ rest) = .ok (0, rest) := by
  have h1 : byteLoop 5 0 = 1 := by simp [byteLoop]
  cases f <;>
  · refine ⟨[1, 0], by simp [save, h1, selectBytes, memOf, leBytes, reverseBytes_eq], ?_⟩
    simp [load, loadImpl, reverseBytes_eq, ofMem, ofLE, asInt64, IntType.cast]

/-- **C05 is false for the smallest 64-bit integer**: writing it negates it (undefined). -/
theorem C05_min_counterexample (c : Config) (f : Flag) :
    save c f (-9223372036854775808) = .ub := by
  simp [save]

/-! ## C06 -/

/-- **C06**, narrow types: for a consistent build, reading a value into a type of `T.bytes` bytes
raises exactly when the magnitude needs more bytes than that, and otherwise consumes exactly the
bytes that were written. -/
theorem C06_width_partial (cw cr : Config) (hw : cw.Consistent) (hr : cr.Consistent) (f : Flag)
    (hf : f ≠ .native ∨ cw.machine = cr.machine) (v : Int)
    (hv : -9223372036854775808 < v ∧ v < 9223372036854775808)
    (T : IntType) (k : Nat) (hk : IsByteWidth v k) (rest : List Nat) :
    ∃ bs, save cw f v = .ok bs ∧
      (T.bytes < k → load cr f T (bs ++ rest) = .raise) ∧
      (k ≤ T.bytes → load cr f T (bs ++ rest) = .ok (T.cast v, rest)) := by
  have hl : v.natAbs < 9223372036854775808 := by omega
  by_cases h0 : v = 0
  · subst h0
    have : k = 0 := by
      by_contra hc
      have := hk.2 0 (by omega)
      simp at this
    subst this
    refine ⟨[0], by simp [save], by omega, fun _ => ?_⟩
    simp [load, loadImpl]
  · have hke := isByteWidth_unique hk (byteLoop_isByteWidth v h0)
    have hs := save_eq cw hw f v h0 hl
    refine ⟨_, hs, fun h => ?_, fun h => ?_⟩
    · unfold load
      rw [loadImpl_save cw cr hw hr f hf v hl T.bytes rest _ hs, if_pos ⟨h0, by omega⟩]
      rfl
    · unfold load
      rw [loadImpl_save cw cr hw hr f hf v hl T.bytes rest _ hs, if_neg (by omega)]
      rfl

/-- **C06**, framing, for every build (consistent or not), every pair of machines and flags: a
written value occupies one size byte plus its byte width, a reader of a type with fewer bytes
raises, and a reader that does return a value has consumed exactly those bytes. -/
theorem C06_framing (cw cr : Config) (fw fr : Flag) (v : Int)
    (hv : -9223372036854775808 < v ∧ v < 9223372036854775808)
    (T : IntType) (k : Nat) (hk : IsByteWidth v k) (rest : List Nat) :
    ∃ bs, save cw fw v = .ok bs ∧ bs.length = k + 1 ∧
      (T.bytes < k → load cr fr T (bs ++ rest) = .raise) ∧
      (k ≤ T.bytes → load cr fr T (bs ++ rest) ≠ .raise) ∧
      (∀ v' rest', load cr fr T (bs ++ rest) = .ok (v', rest') → rest' = rest) := by
  have hl : v.natAbs < 9223372036854775808 := by omega
  by_cases h0 : v = 0
  · subst h0
    have : k = 0 := by
      by_contra hc
      have := hk.2 0 (by omega)
      simp at this
    subst this
    refine ⟨[0], by simp [save], rfl, by omega, fun _ => by simp [load, loadImpl], ?_⟩
    intro v' rest' h
    simp [load, loadImpl] at h
    exact h.2.symm
  · have hke := isByteWidth_unique hk (byteLoop_isByteWidth v h0)
    obtain ⟨g1, g2, g3⟩ := byteLoop_le_eight v.natAbs hl
    rw [← hke] at g1 g2 g3
    have hlen : (selectBytes cw fw v.natAbs k).length = k := by
      have : ∀ m, (memOf m v.natAbs).length = 8 := by intro m; cases m <;> simp [memOf]
      unfold selectBytes
      simp only [reverseBytes_eq]
      split <;> split <;> simp [this] <;> omega
    have hs : save cw fw v = .ok ((if v < 0 then 256 - k else k) :: selectBytes cw fw v.natAbs k) := by
      unfold save
      rw [if_neg h0, if_neg (by omega), hke]
    refine ⟨_, hs, by simp [hlen], ?_⟩
    generalize selectBytes cw fw v.natAbs k = B at *
    have hd : (B ++ rest).drop k = rest := by rw [← hlen]; simp
    have hnl : ¬ (B ++ rest).length < k := by simp; omega
    have hb0 : (if v < 0 then 256 - k else k) ≠ 0 := by split <;> omega
    have hb1 : (if v < 0 then 256 - k else k) ≠ 128 := by split <;> omega
    have hsz : (if decide (128 < (if v < 0 then 256 - k else k)) = true then
        256 - (if v < 0 then 256 - k else k) else (if v < 0 then 256 - k else k)) = k := by
      by_cases hneg : v < 0
      · simp only [if_pos hneg]
        rw [if_pos (by simp; omega)]; omega
      · simp only [if_neg hneg]
        rw [if_neg (by simp; omega)]
    refine ⟨?_, ?_, ?_⟩
    · intro h
      simp only [load, List.cons_append, loadImpl, if_neg hb0, if_neg hb1, hsz]
      rw [if_pos h]; rfl
    · intro h
      simp only [load, List.cons_append, loadImpl, if_neg hb0, if_neg hb1, hsz]
      rw [if_neg (by omega), if_neg hnl]
      have gen : ∀ (P : Prop) [Decidable P] (q : Int × List Nat),
          ((if P then Out.ub else Out.ok q) >>= fun p => (pure (T.cast p.1, p.2) : Out _)) ≠ .raise := by
        intro P _ q
        split <;> simp
      exact gen _ _
    · intro v' rest' h
      simp only [load, List.cons_append, loadImpl, if_neg hb0, if_neg hb1, hsz] at h
      by_cases hm : k > T.bytes
      · rw [if_pos hm] at h; simp at h
      · rw [if_neg hm, if_neg hnl] at h
        have gen : ∀ (P : Prop) [Decidable P] (q : Int × List Nat),
            ((if P then Out.ub else Out.ok q) >>= fun p => (pure (T.cast p.1, p.2) : Out _)) =
              .ok (v', rest') → rest' = q.2 := by
          intro P _ q hq
          split at hq <;> simp at hq
          exact hq.2.symm
        rw [gen _ _ h, hd]

/-- 70000 needs three bytes. -/
example : IsByteWidth 70000 3 := by
  refine ⟨by norm_num, ?_⟩
  intro j hj
  have : j = 0 ∨ j = 1 ∨ j = 2 := by omega
  rcases this with rfl | rfl | rfl <;> norm_num

/-- A value can be stored in few enough bytes and still not fit a *signed* type of that many bytes:
40000 is read into a 16-bit signed type as -25536, without an exception. -/
theorem C06_sign_counterexample (c : Config) (hc : c.Consistent) (f : Flag) (rest : List Nat) :
    ∃ bs, save c f 40000 = .ok bs ∧ load c f ⟨2, true⟩ (bs ++ rest) = .ok (-25536, rest) := by
  have hk : IsByteWidth 40000 2 := by
    refine ⟨by norm_num, ?_⟩
    intro j hj
    have : j = 0 ∨ j = 1 := by omega
    rcases this with rfl | rfl <;> norm_num
  obtain ⟨bs, h1, _, h3⟩ := C06_width_partial c c hc hc f (Or.inr rfl) 40000 (by norm_num) ⟨2, true⟩ 2 hk rest
  exact ⟨bs, h1, by rw [h3 (le_refl _)]; rfl⟩

/-- **C06**, sequences: integers written one after another, each read into a type that can hold it,
come back as the same sequence with nothing left over (and with the following bytes untouched). -/
theorem C06_sequence_partial (cw cr : Config) (hw : cw.Consistent) (hr : cr.Consistent) (f : Flag)
    (hf : f ≠ .native ∨ cw.machine = cr.machine) (vs : List Int) (Ts : List IntType)
    (hlen : Ts.length = vs.length)
    (hfit : ∀ i (h : i < vs.length), 1 ≤ (Ts[i]'(by omega)).bytes ∧ (Ts[i]'(by omega)).Fits vs[i] ∧
      -9223372036854775808 < vs[i] ∧ vs[i] < 9223372036854775808) (rest : List Nat) :
    ∃ bs, saveAll cw f vs = .ok bs ∧ loadAll cr f Ts (bs ++ rest) = .ok (vs, rest) := by
  induction vs generalizing Ts with
  | nil =>
    have : Ts = [] := by simpa using hlen
    subst this
    exact ⟨[], rfl, rfl⟩
  | cons v vs ih =>
    obtain ⟨T, Ts, rfl⟩ : ∃ T Ts', Ts = T :: Ts' := by
      cases Ts with
      | nil => simp at hlen
      | cons T Ts => exact ⟨T, Ts, rfl⟩
    simp only [List.length_cons, Nat.add_right_cancel_iff] at hlen
    obtain ⟨b2, h3, h4⟩ := ih Ts hlen (fun i h => by
      have := hfit (i + 1) (by simpa using h)
      simpa using this)
    have h0 := hfit 0 (by simp)
    simp only [List.getElem_cons_zero] at h0
    obtain ⟨b1, h1, h2⟩ := C05_roundtrip_partial cw cr hw hr f hf v h0.2.2 T h0.1 h0.2.1 (b2 ++ rest)
    refine ⟨b1 ++ b2, by simp [saveAll, h1, h3], ?_⟩
    simp only [loadAll, List.append_assoc, h2, Out.ok_bind, h4]
    rfl

end Kalibr.Archive
