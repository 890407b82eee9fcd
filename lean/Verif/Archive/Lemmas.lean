import Verif.Archive.Model
import Mathlib.Data.List.Basic
import Mathlib.Tactic.Ring

namespace Kalibr.Archive

@[simp] theorem leBytes_length (k n : Nat) : (leBytes k n).length = k := by
  induction k generalizing n with
  | zero => rfl
  | succ k ih => simp [leBytes, ih]

theorem ofLE_leBytes (k n : Nat) (h : n < 256 ^ k) : ofLE (leBytes k n) = n := by
  induction k generalizing n with
  | zero => simp at h; simp [leBytes, ofLE, h]
  | succ k ih =>
    have : n / 256 < 256 ^ k := by
      rw [Nat.div_lt_iff_lt_mul (by norm_num)]
      rwa [Nat.pow_succ] at h
    simp only [leBytes, ofLE, ih _ this]
    omega

theorem ofLE_append_zeros (bs : List Nat) (m : Nat) :
    ofLE (bs ++ List.replicate m 0) = ofLE bs := by
  induction bs with
  | nil =>
    induction m with
    | zero => rfl
    | succ m ih => simp_all [List.replicate_succ, ofLE]
  | cons b bs ih => simp [ofLE, ih]

theorem leBytes_take (k m n : Nat) (h : k ≤ m) : (leBytes m n).take k = leBytes k n := by
  induction k generalizing m n with
  | zero => simp [leBytes]
  | succ k ih =>
    obtain ⟨m, rfl⟩ : ∃ m', m = m' + 1 := ⟨m - 1, by omega⟩
    simp [leBytes, ih m _ (by omega)]

theorem reverseLoop_length (bs : List Nat) (i j : Nat) :
    (reverseLoop bs i j).length = bs.length := by
  fun_induction reverseLoop bs i j with
  | case1 bs i j h ih => rw [ih]; simp
  | case2 => rfl

theorem reverseLoop_get (bs : List Nat) (i j m : Nat) (hj : j < bs.length) (hm : m < bs.length) :
    (reverseLoop bs i j).getD m 0 =
      if i ≤ m ∧ m ≤ j then bs.getD (i + j - m) 0 else bs.getD m 0 := by
  fun_induction reverseLoop bs i j with
  | case1 bs i j h ih =>
    rw [ih (by simp; omega) (by simpa using hm)]
    by_cases h1 : m = i
    · subst h1
      rw [if_neg (by omega), if_pos (by omega)]
      rw [show m + j - m = j by omega]
      simp only [List.getD_eq_getElem?_getD]
      rw [List.getElem?_set_self (by simpa using hm)]; rfl
    by_cases h2 : m = j
    · subst h2
      rw [if_neg (by omega), if_pos (by omega)]
      simp only [List.getD_eq_getElem?_getD]
      rw [List.getElem?_set_ne (by omega), List.getElem?_set_self (by simpa using hm),
        show i + m - m = i by omega]; rfl
    by_cases h3 : i + 1 ≤ m ∧ m ≤ j - 1
    · rw [if_pos h3, if_pos (by omega)]
      simp only [List.getD_eq_getElem?_getD]
      rw [List.getElem?_set_ne (by omega), List.getElem?_set_ne (by omega),
        show i + 1 + (j - 1) - m = i + j - m by omega]
    · rw [if_neg h3, if_neg (by omega)]
      simp only [List.getD_eq_getElem?_getD]
      rw [List.getElem?_set_ne (by omega), List.getElem?_set_ne (by omega)]
  | case2 bs i j h =>
    by_cases h1 : i ≤ m ∧ m ≤ j
    · have : m = i ∧ m = j := by omega
      rw [if_pos h1, show i + j - m = m by omega]
    · rw [if_neg h1]

/-- The byte-swapping loop is list reversal. -/
theorem reverseBytes_eq (bs : List Nat) : reverseBytes bs = bs.reverse := by
  apply List.ext_getElem?
  intro m
  by_cases hm : m < bs.length
  · have h := reverseLoop_get bs 0 (bs.length - 1) m (by omega) hm
    rw [if_pos (by omega)] at h
    unfold reverseBytes
    rw [List.getElem?_reverse hm]
    simp only [List.getD_eq_getElem?_getD] at h
    rw [List.getElem?_eq_getElem (by rw [reverseLoop_length]; exact hm)] at h ⊢
    rw [List.getElem?_eq_getElem (by omega)] at h ⊢
    simp at h
    simp [h]
  · rw [List.getElem?_eq_none (by unfold reverseBytes; rw [reverseLoop_length]; omega),
      List.getElem?_eq_none (by simp; omega)]

/-- The size loop counts the base-256 digits. -/
theorem byteLoop_spec (ll size : Nat) :
    ∃ k, byteLoop ll size = size + k ∧ 1 ≤ k ∧ ll < 256 ^ k ∧ (1 < k → 256 ^ (k - 1) ≤ ll) := by
  fun_induction byteLoop ll size with
  | case1 ll size h => exact ⟨1, rfl, le_refl _, by omega, by omega⟩
  | case2 ll size h ih =>
    obtain ⟨k, h1, h2, h3, h4⟩ := ih
    refine ⟨k + 1, by omega, by omega, ?_, ?_⟩
    · have := (Nat.div_lt_iff_lt_mul (by norm_num : 0 < 256)).1 h3
      rwa [Nat.pow_succ]
    · intro _
      simp only [Nat.add_sub_cancel]
      by_cases hk : k = 1
      · subst hk; omega
      · have := h4 (by omega)
        obtain ⟨j, rfl⟩ : ∃ j, k = j + 1 := ⟨k - 1, by omega⟩
        simp only [Nat.add_sub_cancel] at this
        rw [Nat.pow_succ]
        omega

theorem byteLoop_le_eight (ll : Nat) (h : ll < 9223372036854775808) :
    1 ≤ byteLoop ll 0 ∧ byteLoop ll 0 ≤ 8 ∧ ll < 256 ^ byteLoop ll 0 := by
  obtain ⟨k, h1, h2, h3, h4⟩ := byteLoop_spec ll 0
  have hk : k ≤ 8 := by
    by_contra hc
    have := h4 (by omega)
    have h8 : 256 ^ 8 ≤ 256 ^ (k - 1) := Nat.pow_le_pow_right (by norm_num) (by omega)
    norm_num at h8
    omega
  rw [h1]; simp only [Nat.zero_add]
  exact ⟨h2, hk, h3⟩

/-- The byte order of a stream written by a correctly configured build. -/
def streamOrder (m : Endian) (f : Flag) : Endian :=
  match f with
  | .native => m
  | .little => .little
  | .big => .big

/-- The bytes of `n` in a given order. -/
def bytesIn (o : Endian) (k n : Nat) : List Nat :=
  match o with
  | .little => leBytes k n
  | .big => (leBytes k n).reverse

/-- The preprocessor symbol matches the machine. -/
def Config.Consistent (c : Config) : Prop := c.macroDefined = true ↔ c.machine = .big

theorem selectBytes_eq (c : Config) (hc : c.Consistent) (f : Flag) (n k : Nat) (hk : k ≤ 8) :
    selectBytes c f n k = bytesIn (streamOrder c.machine f) k n := by
  obtain ⟨m, d⟩ := c
  have hd : (List.drop (8 - k) (leBytes 8 n).reverse) = (leBytes k n).reverse := by
    rw [List.drop_reverse, leBytes_length, show 8 - (8 - k) = k by omega, leBytes_take _ _ _ hk]
  cases m <;> cases d <;> simp [Config.Consistent] at hc <;> cases f <;>
    simp [selectBytes, memOf, reverseBytes_eq, streamOrder, bytesIn, leBytes_take _ _ _ hk, hd]

theorem bytesIn_length (o : Endian) (k n : Nat) : (bytesIn o k n).length = k := by
  cases o <;> simp [bytesIn]

/-- What a consistent reader recovers from bytes in the stream's order. -/
theorem readBack (c : Config) (hc : c.Consistent) (f : Flag) (n k : Nat)
    (hn : n < 256 ^ k) (o : Endian) (ho : o = streamOrder c.machine f) :
    (if c.macroDefined then
        ofMem c.machine (List.replicate (8 - k) 0 ++
          (if f = .little then reverseBytes (bytesIn o k n) else bytesIn o k n))
      else
        ofMem c.machine ((if f = .big then reverseBytes (bytesIn o k n) else bytesIn o k n) ++
          List.replicate (8 - k) 0)) = n := by
  obtain ⟨m, d⟩ := c
  subst ho
  cases m <;> cases d <;> simp [Config.Consistent] at hc <;> cases f <;>
    simp [ofMem, reverseBytes_eq, streamOrder, bytesIn, ofLE_append_zeros, ofLE_leBytes _ _ hn]

theorem cast_of_fits (T : IntType) (hT : 1 ≤ T.bytes) (v : Int) (h : T.Fits v) : T.cast v = v := by
  have h2 : (2 : Int) ^ (8 * T.bytes) = 2 * (2 : Int) ^ (8 * T.bytes - 1) := by
    rw [← pow_succ']; congr 1; omega
  unfold IntType.Fits at h
  unfold IntType.cast
  split at h
  · rename_i hs; rw [if_pos hs, Int.emod_eq_of_lt] <;> omega
  · rename_i hs; rw [if_neg hs, Int.emod_eq_of_lt h.1 h.2]

/-- Saving, spelled out for a consistent build. -/
theorem save_eq (c : Config) (hc : c.Consistent) (f : Flag) (l : Int) (h0 : l ≠ 0)
    (hl : l.natAbs < 9223372036854775808) :
    save c f l = .ok ((if l < 0 then 256 - byteLoop l.natAbs 0 else byteLoop l.natAbs 0) ::
      bytesIn (streamOrder c.machine f) (byteLoop l.natAbs 0) l.natAbs) := by
  obtain ⟨h1, h2, h3⟩ := byteLoop_le_eight l.natAbs hl
  unfold save
  rw [if_neg h0, if_neg (by omega)]
  simp only
  rw [selectBytes_eq c hc f _ _ h2]

/-- Loading what was saved, for the raw 64-bit value. -/
theorem loadImpl_save (cw cr : Config) (hw : cw.Consistent) (hr : cr.Consistent) (f : Flag)
    (hf : f ≠ .native ∨ cw.machine = cr.machine) (l : Int)
    (hl : l.natAbs < 9223372036854775808) (maxsize : Nat) (rest bs : List Nat)
    (hs : save cw f l = .ok bs) :
    loadImpl cr f maxsize (bs ++ rest) =
      if l ≠ 0 ∧ maxsize < byteLoop l.natAbs 0 then .raise else .ok (l, rest) := by
  by_cases h0 : l = 0
  · subst h0
    simp [save] at hs
    subst hs
    simp [loadImpl]
  · rw [save_eq cw hw f l h0 hl] at hs
    cases hs
    obtain ⟨h1, h2, h3⟩ := byteLoop_le_eight l.natAbs hl
    generalize byteLoop l.natAbs 0 = k at *
    have ho : streamOrder cw.machine f = streamOrder cr.machine f := by
      rcases hf with hf | hf
      · cases f <;> simp_all [streamOrder]
      · rw [hf]
    have hrb := readBack cr hr f l.natAbs k h3 _ ho
    have hlen := bytesIn_length (streamOrder cw.machine f) k l.natAbs
    generalize bytesIn (streamOrder cw.machine f) k l.natAbs = B at *
    have ht : (B ++ rest).take k = B := by rw [← hlen]; simp
    have hd : (B ++ rest).drop k = rest := by rw [← hlen]; simp
    simp only [List.cons_append, loadImpl]
    have hlt : ¬ (B ++ rest).length < k := by simp; omega
    have hi : asInt64 l.natAbs = (l.natAbs : Int) := by unfold asInt64; rw [if_pos hl]
    by_cases hneg : l < 0
    · simp only [if_pos hneg]
      rw [if_neg (by omega), if_neg (by omega)]
      have hdec : decide (128 < 256 - k) = true := by simp; omega
      simp only [hdec, if_true]
      rw [show 256 - (256 - k) = k by omega]
      by_cases hm : maxsize < k
      · rw [if_pos hm, if_pos ⟨h0, hm⟩]
      · rw [if_neg hm, if_neg hlt, if_neg (c := l ≠ 0 ∧ maxsize < k) (by tauto), ht, hd, hrb, hi,
          if_neg (by omega)]
        congr 2; omega
    · simp only [if_neg hneg]
      rw [if_neg (by omega), if_neg (by omega)]
      have hdec : decide (128 < k) = false := by simp; omega
      simp only [hdec, Bool.false_eq_true, if_false, false_and]
      by_cases hm : maxsize < k
      · rw [if_pos hm, if_pos ⟨h0, hm⟩]
      · rw [if_neg hm, if_neg hlt, if_neg (c := l ≠ 0 ∧ maxsize < k) (by tauto), ht, hd, hrb, hi]
        congr 2; omega

end Kalibr.Archive
