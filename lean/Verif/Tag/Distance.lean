import Verif.Tag.Props
import Verif.Tag.Families

/-!
# Minimum distance of the shipped code tables

The distances of one word to all words of a list are counted at once: the list is packed into one
number with `K` bits per word, and the bits of every field are summed in parallel.  The check is
evaluated by the kernel; its soundness is proved below.
-/

namespace Kalibr.Tag

/-- A list of numbers in consecutive fields of `K` bits. -/
def pack (K : Nat) : List Nat → Nat
  | [] => 0
  | x :: l => 2 ^ K * pack K l + x

theorem pack_testBit (K : Nat) (l : List Nat) (h : ∀ x ∈ l, x < 2 ^ K) (q i : Nat) (hi : i < K) :
    (pack K l).testBit (K * q + i) = (l.getD q 0).testBit i := by
  induction l generalizing q with
  | nil => simp [pack]
  | cons x l ih =>
    rw [pack, Nat.testBit_two_pow_mul_add _ (h x (by simp))]
    cases q with
    | zero => rw [Nat.mul_zero, Nat.zero_add, if_pos hi]; rfl
    | succ q =>
      have e : K * (q + 1) + i = K * q + i + K := by ring
      rw [if_neg (by rw [e]; omega), e, Nat.add_sub_cancel, ih (fun x hx => h x (by simp [hx]))]
      rfl

theorem testBit_ext_fields {K a b : Nat} (hK : 0 < K)
    (h : ∀ q i, i < K → a.testBit (K * q + i) = b.testBit (K * q + i)) : a = b := by
  apply Nat.eq_of_testBit_eq
  intro j
  have := h (j / K) (j % K) (Nat.mod_lt _ hK)
  rwa [Nat.div_add_mod] at this

theorem pack_add (K : Nat) : ∀ l l' : List Nat, l.length = l'.length →
    pack K l + pack K l' = pack K (List.zipWith (· + ·) l l')
  | [], [], _ => rfl
  | x :: l, y :: l', h => by
    rw [pack, pack, List.zipWith_cons_cons, pack, ← pack_add K l l' (by simpa using h)]; ring

theorem pack_map_add (K : Nat) (f g : Nat → Nat) (l : List Nat) :
    pack K (l.map f) + pack K (l.map g) = pack K (l.map fun x => f x + g x) := by
  induction l with
  | nil => rfl
  | cons x l ih => simp only [List.map_cons, pack]; rw [← ih]; ring

theorem pack_const (K w : Nat) (l : List Nat) :
    pack K (l.map fun _ => 1) * w = pack K (l.map fun _ => w) := by
  induction l with
  | nil => simp [pack]
  | cons x l ih => simp only [List.map_cons, pack]; rw [← ih]; ring

theorem getD_map_lt (f : Nat → Nat) (l : List Nat) (q : Nat) :
    (l.map f).getD q 0 = if q < l.length then f (l.getD q 0) else 0 := by
  simp only [List.getD_eq_getElem?_getD, List.getElem?_map]
  by_cases h : q < l.length
  · rw [if_pos h, List.getElem?_eq_getElem h]; rfl
  · rw [if_neg h, List.getElem?_eq_none (by omega)]; rfl

theorem getD_lt {l : List Nat} {B : Nat} (hB : 0 < B) (h : ∀ x ∈ l, x < B) (q : Nat) : l.getD q 0 < B := by
  by_cases hq : q < l.length
  · rw [List.getD_eq_getElem _ _ hq]; exact h _ (List.getElem_mem hq)
  · rw [List.getD_eq_default _ _ (by omega)]; exact hB

/-- Exclusive or of every field with `w`. -/
theorem pack_xor (K w : Nat) (l : List Nat) (hK : 0 < K) (h : ∀ x ∈ l, x < 2 ^ K) (hw : w < 2 ^ K) :
    pack K l ^^^ (pack K (l.map fun _ => 1) * w) = pack K (l.map fun x => x ^^^ w) := by
  rw [pack_const]
  apply testBit_ext_fields hK
  intro q i hi
  rw [Nat.testBit_xor, pack_testBit K l h q i hi, pack_testBit, pack_testBit _ _ _ _ _ hi, getD_map_lt,
    getD_map_lt]
  · by_cases hq : q < l.length
    · rw [if_pos hq, if_pos hq, Nat.testBit_xor]
    · rw [if_neg hq, if_neg hq, List.getD_eq_default _ _ (by omega)]; simp
  · intro x hx
    obtain ⟨y, hy, rfl⟩ := List.mem_map.1 hx
    exact Nat.xor_lt_two_pow (h y hy) hw
  · intro x hx
    obtain ⟨y, hy, rfl⟩ := List.mem_map.1 hx
    exact hw
  · exact hi

/-- Bit `i` of every field. -/
theorem pack_bit (K i : Nat) (l : List Nat) (h : ∀ x ∈ l, x < 2 ^ K) (hi : i < K) :
    (pack K l >>> i) &&& pack K (l.map fun _ => 1) = pack K (l.map fun x => (x.testBit i).toNat) := by
  have hK : 0 < K := by omega
  have h1 : (1 : Nat) < 2 ^ K := Nat.one_lt_two_pow (by omega)
  apply testBit_ext_fields hK
  intro q j hj
  rw [Nat.testBit_and, Nat.testBit_shiftRight, pack_testBit K (l.map fun _ => 1) 
      (by intro x hx; obtain ⟨_, _, rfl⟩ := List.mem_map.1 hx; exact h1) q j hj,
    pack_testBit K (l.map fun x => (x.testBit i).toNat) _ q j hj, getD_map_lt, getD_map_lt]
  · by_cases hq : q < l.length
    · rw [if_pos hq, if_pos hq]
      cases j with
      | zero =>
        have e : i + (K * q + 0) = K * q + i := by ring
        rw [e, pack_testBit K l h q i hi]
        cases (l.getD q 0).testBit i <;> rfl
      | succ j =>
        have e1 : Nat.testBit 1 (j + 1) = false := by simp [Nat.testBit_succ]
        rw [e1, Bool.and_false]
        cases (l.getD q 0).testBit i
        · simp
        · simp [e1]
    · rw [if_neg hq, if_neg hq]; simp
  · intro x hx
    obtain ⟨y, hy, rfl⟩ := List.mem_map.1 hx
    have : (y.testBit i).toNat ≤ 1 := Bool.toNat_le _
    omega

/-- Evaluate a number before using it several times. -/
def force (n : Nat) (k : Nat → Bool) : Bool := Nat.rec (k 0) (fun m _ => k (Nat.succ m)) n

theorem force_eq (n : Nat) (k : Nat → Bool) : force n k = k n := by
  cases n <;> rfl

/-- Sum over `i < b` of bit `i` of every field. -/
def sumBits (X R : Nat) : Nat → Nat
  | 0 => 0
  | b + 1 => Nat.add (sumBits X R b) (Nat.land (Nat.shiftRight X b) R)

/-- Every field of `P` differs from `w` in at least `m` of the lowest `b` bits. -/
def rowOk (b m R P w : Nat) : Bool :=
  force (Nat.xor P (Nat.mul R w)) fun X =>
    Nat.beq (Nat.land (Nat.add (sumBits X R b) (Nat.mul R (64 - m))) (Nat.mul R 64)) (Nat.mul R 64)

theorem sumBits_eq (K : Nat) (l : List Nat) (h : ∀ x ∈ l, x < 2 ^ K) (b : Nat) (hb : b ≤ K) :
    sumBits (pack K l) (pack K (l.map fun _ => 1)) b = pack K (l.map fun x => ones (x % 2 ^ b)) := by
  induction b with
  | zero =>
    have e : ones 0 = 0 := by rw [ones]; simp
    simp only [sumBits, pow_zero, Nat.mod_one, e]
    have := pack_const K 0 l
    rw [Nat.mul_zero] at this
    exact this
  | succ b ih =>
    have hb' := pack_bit K b l h (by omega)
    rw [sumBits]
    show sumBits _ _ b + ((pack K l >>> b) &&& pack K (l.map fun _ => 1)) = _
    rw [hb', ih (by omega), pack_map_add]
    congr 1
    apply List.map_congr_left
    intro x _
    rw [ones_split b (x % 2 ^ (b + 1))]
    have e1 : x % 2 ^ (b + 1) % 2 ^ b = x % 2 ^ b := by
      rw [pow_succ]; exact Nat.mod_mul_right_mod x (2 ^ b) 2
    have e2 : x % 2 ^ (b + 1) / 2 ^ b = x / 2 ^ b % 2 := by
      rw [pow_succ]; exact Nat.mod_mul_right_div_self x (2 ^ b) 2
    rw [e1, e2, Nat.testBit_eq_decide_div_mod_eq]
    congr 1
    have o0 : ones 0 = 0 := by rw [ones]; simp
    have o1 : ones 1 = 1 := by rw [ones]; simp [o0]
    rcases Nat.mod_two_eq_zero_or_one (x / 2 ^ b) with h1 | h1
    · rw [h1, o0]; rfl
    · rw [h1, o1]; rfl

theorem rowOk_sound (K b m w : Nat) (l : List Nat) (hb : b ≤ 63) (hbK : b ≤ K) (hK : 7 ≤ K) (hm : m ≤ 64)
    (h : ∀ x ∈ l, x < 2 ^ b) (hw : w < 2 ^ b)
    (hr : rowOk b m (pack K (l.map fun _ => 1)) (pack K l) w = true) :
    ∀ x ∈ l, m ≤ ones (x ^^^ w) := by
  have hbK' : (2 : Nat) ^ b ≤ 2 ^ K := Nat.pow_le_pow_right (by norm_num) hbK
  have h128 : (2 : Nat) ^ 7 ≤ 2 ^ K := Nat.pow_le_pow_right (by norm_num) hK
  unfold rowOk at hr
  rw [force_eq] at hr
  have hx : Nat.xor (pack K l) (Nat.mul (pack K (l.map fun _ => 1)) w) = pack K (l.map fun x => x ^^^ w) :=
    pack_xor K w l (by omega) (fun x hx => lt_of_lt_of_le (h x hx) hbK') (by omega)
  rw [hx] at hr
  have hR : (l.map fun _ => 1) = (l.map fun x => x ^^^ w).map (fun _ => 1) := by rw [List.map_map]; rfl
  rw [hR, sumBits_eq K _ _ b hbK] at hr
  · have e : ∀ c, Nat.mul (pack K ((l.map fun x => x ^^^ w).map fun _ => 1)) c
        = pack K ((l.map fun x => x ^^^ w).map fun _ => c) := fun c => pack_const K c _
    have hr' := Nat.eq_of_beq_eq_true hr
    rw [e, e] at hr'
    change ((pack K _ + pack K _) &&& _) = _ at hr'
    rw [pack_map_add] at hr'
    intro x hxl
    obtain ⟨q, hq, rfl⟩ := List.getElem_of_mem hxl
    have hbit := congrArg (fun n => n.testBit (K * q + 6)) hr'
    simp only [Nat.testBit_and] at hbit
    have h64 : ∀ y ∈ List.map (fun _ => 64) (l.map fun x => x ^^^ w), y < 2 ^ K := by
      intro y hy
      obtain ⟨z, _, rfl⟩ := List.mem_map.1 hy
      omega
    have hle : ∀ y, ones (y % 2 ^ b) ≤ b := fun y => ones_lt b _ (Nat.mod_lt _ (Nat.two_pow_pos b))
    have hS : ∀ y ∈ List.map (fun x => ones (x % 2 ^ b) + (64 - m)) (l.map fun x => x ^^^ w), y < 2 ^ K := by
      intro y hy
      obtain ⟨z, _, rfl⟩ := List.mem_map.1 hy
      have := hle z
      omega
    rw [pack_testBit K _ h64 q 6 (by omega), pack_testBit K _ hS q 6 (by omega)] at hbit
    simp only [List.map_map] at hbit
    rw [getD_map_lt, getD_map_lt, if_pos hq, if_pos hq] at hbit
    simp only [Function.comp, List.getD_eq_getElem _ _ hq] at hbit
    have h6 : Nat.testBit 64 6 = true := by decide
    rw [h6, Bool.and_true] at hbit
    have hmod : (l[q] ^^^ w) % 2 ^ b = l[q] ^^^ w :=
      Nat.mod_eq_of_lt (Nat.xor_lt_two_pow (h _ (List.getElem_mem hq)) hw)
    rw [hmod] at hbit
    have hlt := hle (l[q] ^^^ w)
    rw [hmod] at hlt
    by_contra hc
    have : ones (l[q] ^^^ w) + (64 - m) < 2 ^ 6 := by
      norm_num; omega
    rw [Nat.testBit_lt_two_pow this] at hbit
    cases hbit
  · intro y hy
    obtain ⟨z, hz, rfl⟩ := List.mem_map.1 hy
    exact lt_of_lt_of_le (Nat.xor_lt_two_pow (h z hz) hw) hbK'

/-- Every word of the list against all later ones. -/
def checkLater (K b m : Nat) : List Nat → Nat → Nat → Bool
  | [], _, _ => true
  | w :: l, R, P =>
    force (Nat.shiftRight R K) fun R' => force (Nat.shiftRight P K) fun P' =>
      rowOk b m R' P' w && checkLater K b m l R' P'

/-- Every rotated word of the list against all words. -/
def checkTurned (d K b m R P : Nat) : List Nat → Bool
  | [] => true
  | w :: l =>
    force (rowsVal w d d) fun w1 => force (rowsVal w1 d d) fun w2 => force (rowsVal w2 d d) fun w3 =>
      rowOk b m R P w1 && (rowOk b m R P w2 && (rowOk b m R P w3 && checkTurned d K b m R P l))

theorem pack_shift (K x : Nat) (l : List Nat) (hx : x < 2 ^ K) : pack K (x :: l) >>> K = pack K l := by
  rw [pack, Nat.shiftRight_eq_div_pow, Nat.mul_add_div (Nat.two_pow_pos K), Nat.div_eq_of_lt hx, Nat.add_zero]

theorem checkLater_sound (K b m : Nat) (hb : b ≤ 63) (hbK : b ≤ K) (hK : 7 ≤ K) (hm : m ≤ 64) (l : List Nat)
    (h : ∀ x ∈ l, x < 2 ^ b)
    (hc : checkLater K b m l (pack K (l.map fun _ => 1)) (pack K l) = true) :
    l.Pairwise fun x y => m ≤ ones (y ^^^ x) := by
  have hbK' : (2 : Nat) ^ b ≤ 2 ^ K := Nat.pow_le_pow_right (by norm_num) hbK
  have h1 : (1 : Nat) < 2 ^ K := Nat.one_lt_two_pow (by omega)
  induction l with
  | nil => exact List.Pairwise.nil
  | cons w l ih =>
    rw [checkLater, force_eq, force_eq] at hc
    change (rowOk b m (pack K (1 :: l.map fun _ => 1) >>> K) (pack K (w :: l) >>> K) w &&
      checkLater K b m l (pack K (1 :: l.map fun _ => 1) >>> K) (pack K (w :: l) >>> K)) = true at hc
    rw [pack_shift K 1 _ h1, pack_shift K w _ (lt_of_lt_of_le (h w (by simp)) hbK'), Bool.and_eq_true] at hc
    have hl : ∀ x ∈ l, x < 2 ^ b := fun x hx => h x (by simp [hx])
    exact List.Pairwise.cons (rowOk_sound K b m w l hb hbK hK hm hl (h w (by simp)) hc.1) (ih hl hc.2)

theorem checkTurned_sound (d K b m : Nat) (hb : b = d * d) (h63 : b ≤ 63) (hbK : b ≤ K) (hK : 7 ≤ K)
    (hm : m ≤ 64) (L l : List Nat) (hL : ∀ x ∈ L, x < 2 ^ b)
    (hc : checkTurned d K b m (pack K (L.map fun _ => 1)) (pack K L) l = true) :
    ∀ w ∈ l, ∀ x ∈ L, m ≤ ones (x ^^^ rowsVal w d d) ∧ m ≤ ones (x ^^^ rowsVal (rowsVal w d d) d d) ∧
      m ≤ ones (x ^^^ rowsVal (rowsVal (rowsVal w d d) d d) d d) := by
  induction l with
  | nil => simp
  | cons w l ih =>
    rw [checkTurned, force_eq, force_eq, force_eq] at hc
    simp only [Bool.and_eq_true] at hc
    have hlt : ∀ v, rowsVal v d d < 2 ^ b := fun v => by rw [hb]; exact rowsVal_lt v d d
    intro v hv x hx
    rcases List.mem_cons.1 hv with rfl | hv
    · exact ⟨rowOk_sound K b m _ L h63 hbK hK hm hL (hlt _) hc.1 x hx,
        rowOk_sound K b m _ L h63 hbK hK hm hL (hlt _) hc.2.1 x hx,
        rowOk_sound K b m _ L h63 hbK hK hm hL (hlt _) hc.2.2.1 x hx⟩
    · exact ih hc.2.2.2 v hv x hx

/-- The words of the table, in all rotations, are pairwise at least `m` cells apart, and each is at
least `m` cells from its own rotations. -/
def MinDistance (d : Nat) (codes : List Nat) (m : Nat) : Prop :=
  (∀ c ∈ codes, c < 2 ^ (d * d)) ∧
  ∀ i j k, i < codes.length → j < codes.length → k < 4 → (i ≠ j ∨ k ≠ 0) →
    m ≤ diff (turns d k (pattern (codes.getD i 0))) (pattern (codes.getD j 0))

theorem minDistance_of_check (d m : Nat) (codes : List Nat) (h63 : d * d ≤ 63) (hL : ∀ x ∈ codes, x < 2 ^ (d * d))
    (h1 : codes.Pairwise fun x y => m ≤ ones (y ^^^ x))
    (h2 : ∀ w ∈ codes, ∀ x ∈ codes, m ≤ ones (x ^^^ rowsVal w d d) ∧
      m ≤ ones (x ^^^ rowsVal (rowsVal w d d) d d) ∧
      m ≤ ones (x ^^^ rowsVal (rowsVal (rowsVal w d d) d d) d d)) : MinDistance d codes m := by
  have hp : (2 : Nat) ^ (d * d) ≤ 2 ^ 64 := Nat.pow_le_pow_right (by norm_num) (by omega)
  have hpat : ∀ w, pattern (rowsVal w d d) = turn d (pattern w) := by
    intro w
    obtain ⟨w', e1, _, e3⟩ := rotate90_eq w d (by omega)
    have : rotate90 w d = .ok (rowsVal w d d) := rotRows_eq w d d (by omega) le_rfl
    rw [this] at e1
    cases e1
    exact e3
  have hd : ∀ x w, x < 2 ^ (d * d) → w < 2 ^ (d * d) → ones (x ^^^ w) = diff (pattern w) (pattern x) := by
    intro x w hx hw
    rw [diff_comm, ← hammingDistance_eq x w (by omega) (by omega)]
    unfold hammingDistance
    rw [popCount_eq]
  have hlt : ∀ v, rowsVal v d d < 2 ^ (d * d) := fun v => rowsVal_lt v d d
  refine ⟨hL, ?_⟩
  intro i j k hi hj hk hne
  have hci : codes.getD i 0 ∈ codes := by rw [List.getD_eq_getElem _ _ hi]; exact List.getElem_mem hi
  have hcj : codes.getD j 0 ∈ codes := by rw [List.getD_eq_getElem _ _ hj]; exact List.getElem_mem hj
  have ht := h2 _ hci _ hcj
  rw [hd _ _ (hL _ hcj) (hlt _), hd _ _ (hL _ hcj) (hlt _), hd _ _ (hL _ hcj) (hlt _)] at ht
  simp only [hpat] at ht
  have : k = 0 ∨ k = 1 ∨ k = 2 ∨ k = 3 := by omega
  rcases this with rfl | rfl | rfl | rfl
  · have hij : i ≠ j := by simpa using hne
    show m ≤ diff (pattern _) (pattern _)
    rw [List.getD_eq_getElem _ _ hi, List.getD_eq_getElem _ _ hj]
    rcases Nat.lt_or_gt_of_ne hij with hlt' | hlt'
    · have := List.pairwise_iff_getElem.1 h1 i j hi hj hlt'
      rwa [hd _ _ (hL _ (List.getElem_mem hj)) (hL _ (List.getElem_mem hi))] at this
    · have := List.pairwise_iff_getElem.1 h1 j i hj hi hlt'
      rw [hd _ _ (hL _ (List.getElem_mem hi)) (hL _ (List.getElem_mem hj))] at this
      rwa [diff_comm]
  · exact ht.1
  · exact ht.2.1
  · exact ht.2.2

/-- All words below a bound. -/
def allLt (B : Nat) : List Nat → Bool
  | [] => true
  | x :: l => Nat.blt x B && allLt B l

theorem allLt_sound {B : Nat} {l : List Nat} (h : allLt B l = true) : ∀ x ∈ l, x < B := by
  induction l with
  | nil => simp
  | cons y l ih =>
    rw [allLt, Bool.and_eq_true] at h
    intro x hx
    rcases List.mem_cons.1 hx with rfl | hx
    · simpa using h.1
    · exact ih h.2 x hx

/-- The whole check. -/
def check (d K m : Nat) (codes : List Nat) : Bool :=
  allLt (2 ^ (d * d)) codes &&
  force (pack K (codes.map fun _ => 1)) fun R => force (pack K codes) fun P =>
    checkLater K (d * d) m codes R P && checkTurned d K (d * d) m R P codes

theorem check_sound (d K m : Nat) (codes : List Nat) (h63 : d * d ≤ 63) (hbK : d * d ≤ K)
    (hK : 7 ≤ K) (hm : m ≤ 64) (h : check d K m codes = true) : MinDistance d codes m := by
  unfold check at h
  rw [force_eq, force_eq, Bool.and_eq_true, Bool.and_eq_true] at h
  have hL := allLt_sound h.1
  exact minDistance_of_check d m codes h63 hL
    (checkLater_sound K (d * d) m h63 hbK hK hm codes hL h.2.1)
    (checkTurned_sound d K (d * d) m rfl h63 hbK hK hm codes codes hL h.2.2)

end Kalibr.Tag
