import Verif.Tag.Model
import Verif.Tag.Spec
import Mathlib.Data.Finset.Image
import Mathlib.Algebra.Order.BigOperators.Group.Finset
import Mathlib.Data.List.Pairwise
import Mathlib.Algebra.BigOperators.Intervals

namespace Kalibr.Tag

/-! ### Rotation -/

/-- The bits of one row. -/
def rowVal (w d r : Nat) : Nat → Nat
  | 0 => 0
  | n + 1 => 2 * rowVal w d r n + (w.testBit (r + d * n)).toNat

theorem rowVal_lt (w d r n : Nat) : rowVal w d r n < 2 ^ n := by
  induction n with
  | zero => simp [rowVal]
  | succ n ih =>
    rw [rowVal, pow_succ]
    have : (w.testBit (r + d * n)).toNat ≤ 1 := Bool.toNat_le _
    omega

theorem rowVal_testBit (w d r n j : Nat) (hj : j < n) :
    (rowVal w d r n).testBit j = w.testBit (r + d * (n - 1 - j)) := by
  induction n generalizing j with
  | zero => omega
  | succ n ih =>
    rw [rowVal]
    have h1 : (w.testBit (r + d * n)).toNat < 2 ^ 1 := by
      have : (w.testBit (r + d * n)).toNat ≤ 1 := Bool.toNat_le _
      omega
    have := Nat.testBit_two_pow_mul_add (rowVal w d r n) h1 j
    rw [pow_one] at this
    rw [this]
    cases j with
    | zero =>
      simp
      cases w.testBit (r + d * n) <;> rfl
    | succ j =>
      rw [if_neg (by omega), Nat.add_sub_cancel, ih j (by omega)]
      congr 3
      omega

theorem or_one_even (a : Nat) : (a * 2) ||| 1 = 2 * a + 1 := by
  have h := Nat.two_pow_add_eq_or_of_lt (b := 1) (i := 1) (by norm_num) a
  rw [mul_comm a 2]
  simpa using h.symm

theorem rotCols_eq (w d r wr n : Nat) (hd : d * d ≤ 64) (hr : r < d) (hn : n ≤ d)
    (hw : wr * 2 ^ n + 2 ^ n ≤ 2 ^ 64) :
    rotCols w d r wr n = .ok (wr * 2 ^ n + rowVal w d r n) := by
  induction n with
  | zero => simp [rotCols, rowVal]
  | succ n ih =>
    have hp := Nat.two_pow_pos n
    rw [pow_succ] at hw
    have e : wr * (2 ^ n * 2) = wr * 2 ^ n * 2 := by ring
    rw [rotCols, ih (by omega) (by omega)]
    simp only [Out.ok_bind, rotStep]
    have hb : r + d * n < 64 := by
      have : d * (n + 1) ≤ d * d := Nat.mul_le_mul_left _ hn
      rw [Nat.mul_succ] at this; omega
    rw [if_neg (by omega)]
    have hlt : (wr * 2 ^ n + rowVal w d r n) * 2 < 2 ^ 64 := by
      have := rowVal_lt w d r n
      omega
    rw [Nat.mod_eq_of_lt hlt, rowVal]
    cases w.testBit (r + d * n) with
    | false => simp; ring
    | true =>
      rw [if_pos rfl, or_one_even]
      simp only [Bool.toNat_true]
      congr 1
      ring

/-- The bits of the first `n` rows (from the top). -/
def rowsVal (w d : Nat) : Nat → Nat
  | 0 => 0
  | n + 1 => 2 ^ d * rowsVal w d n + rowVal w d (d - 1 - n) d

theorem rowsVal_lt (w d n : Nat) : rowsVal w d n < 2 ^ (d * n) := by
  induction n with
  | zero => simp [rowsVal]
  | succ n ih =>
    rw [rowsVal, Nat.mul_succ, pow_add]
    have h1 := rowVal_lt w d (d - 1 - n) d
    have h2 : 2 ^ d * (rowsVal w d n + 1) ≤ 2 ^ d * 2 ^ (d * n) := Nat.mul_le_mul_left _ ih
    rw [Nat.mul_succ] at h2
    rw [mul_comm (2 ^ (d * n))]
    omega

theorem rowsVal_testBit (w d n q c : Nat) (hn : n ≤ d) (hq : q < n) (hc : c < d) :
    (rowsVal w d n).testBit (d * q + c) = w.testBit (d - n + q + d * (d - 1 - c)) := by
  induction n generalizing q with
  | zero => omega
  | succ n ih =>
    rw [rowsVal, Nat.testBit_two_pow_mul_add _ (rowVal_lt _ _ _ _)]
    cases q with
    | zero =>
      rw [Nat.mul_zero, Nat.zero_add, if_pos hc, rowVal_testBit _ _ _ _ _ hc]
      congr 1; omega
    | succ q =>
      have e : d * (q + 1) + c = d * q + c + d := by ring
      rw [if_neg (by omega), e, Nat.add_sub_cancel, ih q (by omega) (by omega)]
      congr 1; omega

theorem rotRows_eq (w d n : Nat) (hd : d * d ≤ 64) (hn : n ≤ d) :
    rotRows w d n = .ok (rowsVal w d n) := by
  induction n with
  | zero => rfl
  | succ n ih =>
    rw [rotRows, ih (by omega)]
    simp only [Out.ok_bind]
    rw [rotCols_eq _ _ _ _ _ hd (by omega) le_rfl, rowsVal, mul_comm]
    have h1 := rowsVal_lt w d n
    have h2 : (rowsVal w d n + 1) * 2 ^ d ≤ 2 ^ (d * n) * 2 ^ d := Nat.mul_le_mul_right _ h1
    rw [← pow_add, ← Nat.mul_succ] at h2
    have h3 : 2 ^ (d * (n + 1)) ≤ 2 ^ 64 := Nat.pow_le_pow_right (by norm_num)
      (le_trans (Nat.mul_le_mul_left _ hn) hd)
    rw [Nat.add_mul, Nat.one_mul] at h2
    exact le_trans h2 h3

/-- What `rotate90` computes. -/
theorem rotate90_eq (w d : Nat) (hd : d * d ≤ 64) :
    ∃ w', rotate90 w d = .ok w' ∧ w' < 2 ^ (d * d) ∧ pattern w' = turn d (pattern w) := by
  refine ⟨_, rotRows_eq w d d hd le_rfl, rowsVal_lt w d d, ?_⟩
  funext i
  unfold pattern turn
  by_cases hi : i < d * d
  · have hd0 : 0 < d := by
      rcases Nat.eq_zero_or_pos d with h | h
      · subst h; omega
      · exact h
    have hm := Nat.mod_lt i hd0
    have hq : i / d < d := Nat.div_lt_of_lt_mul hi
    have e := Nat.div_add_mod i d
    have := rowsVal_testBit w d d (i / d) (i % d) le_rfl hq hm
    rw [e] at this
    rw [this, decide_eq_true hi, Bool.true_and]
    congr 1; omega
  · rw [decide_eq_false hi, Bool.false_and]
    apply Nat.testBit_lt_two_pow
    exact lt_of_lt_of_le (rowsVal_lt w d d) (Nat.pow_le_pow_right (by norm_num) (by omega))

theorem rotCols_ne_raise (w d r wr n : Nat) : rotCols w d r wr n ≠ .raise := by
  induction n with
  | zero => simp [rotCols]
  | succ n ih =>
    rw [rotCols]
    cases h : rotCols w d r wr n with
    | ok a => simp only [Out.ok_bind, rotStep]; split <;> simp
    | raise => exact absurd h ih
    | ub => simp

/-- Too large a dimension is undefined. -/
theorem rotate90_ub (w d : Nat) (hd : 9 ≤ d) : rotate90 w d = .ub := by
  have key : ∀ n, 1 ≤ n → n ≤ d → rotRows w d n = .ub := by
    intro n
    induction n with
    | zero => omega
    | succ n ih =>
      intro _ hn
      rcases Nat.eq_zero_or_pos n with h0 | h0
      · subst h0
        have hc : ∀ m wr, 9 ≤ m → m ≤ d → rotCols w d (d - 1 - 0) wr m = .ub := by
          intro m
          induction m with
          | zero => intro _ h; omega
          | succ m ihm =>
            intro wr h1 h2
            rcases Nat.lt_or_ge m 9 with h3 | h3
            · have : m = 8 := by omega
              subst this
              rw [rotCols]
              cases hrc : rotCols w d (d - 1 - 0) wr 8 with
              | ok a =>
                simp only [Out.ok_bind, rotStep]
                rw [if_pos]
                omega
              | raise => exact absurd hrc (rotCols_ne_raise _ _ _ _ _)
              | ub => rfl
            · rw [rotCols, ihm wr h3 (by omega)]; rfl
        rw [rotRows]
        simp only [rotRows, Out.ok_bind]
        exact hc d _ hd le_rfl
      · rw [rotRows, ih h0 (by omega)]; rfl
  exact key d (by omega) le_rfl

/-! ### Turns as permutations of cells -/

/-- Where the cell `i` comes from. -/
def src (d i : Nat) : Nat := d * (d - 1 - i % d) + i / d

theorem src_lt {d i : Nat} (h : i < d * d) : src d i < d * d := by
  have hd0 : 0 < d := by
    rcases Nat.eq_zero_or_pos d with h' | h'
    · subst h'; omega
    · exact h'
  have hq : i / d < d := Nat.div_lt_of_lt_mul h
  unfold src
  have : d * (d - 1 - i % d + 1) ≤ d * d := Nat.mul_le_mul_left _ (by omega)
  rw [Nat.mul_succ] at this
  omega

theorem src_div_mod {d i : Nat} (h : i < d * d) : src d i / d = d - 1 - i % d ∧ src d i % d = i / d := by
  have hd0 : 0 < d := by
    rcases Nat.eq_zero_or_pos d with h' | h'
    · subst h'; omega
    · exact h'
  have hq : i / d < d := Nat.div_lt_of_lt_mul h
  unfold src
  constructor
  · rw [Nat.mul_add_div hd0, Nat.div_eq_of_lt hq, Nat.add_zero]
  · rw [Nat.mul_add_mod, Nat.mod_eq_of_lt hq]

theorem src_four {d i : Nat} (h : i < d * d) : src d (src d (src d (src d i))) = i := by
  have hd0 : 0 < d := by
    rcases Nat.eq_zero_or_pos d with h' | h'
    · subst h'; omega
    · exact h'
  have hm := Nat.mod_lt i hd0
  have hq : i / d < d := Nat.div_lt_of_lt_mul h
  have h1 := src_lt h
  have h2 := src_lt h1
  have h3 := src_lt h2
  have e1 := src_div_mod h
  have e2 := src_div_mod h1
  have e3 := src_div_mod h2
  have e4 := src_div_mod h3
  have e := Nat.div_add_mod (src d (src d (src d (src d i)))) d
  have e' := Nat.div_add_mod i d
  rw [← e, e4.1, e4.2, e3.1, e3.2, e2.1, e2.2, e1.1, e1.2]
  rw [show d - 1 - (d - 1 - i / d) = i / d by omega, show d - 1 - (d - 1 - i % d) = i % d by omega, e']

theorem turn_apply (d : Nat) (g : Nat → Bool) {i : Nat} (h : i < d * d) : turn d g i = g (src d i) := by
  unfold turn src; rw [decide_eq_true h, Bool.true_and]

theorem turn_out (d : Nat) (g : Nat → Bool) {i : Nat} (h : ¬ i < d * d) : turn d g i = false := by
  unfold turn; rw [decide_eq_false h, Bool.false_and]

/-- Black cells only inside the grid. -/
def Inside (d : Nat) (g : Nat → Bool) : Prop := ∀ i, ¬ i < d * d → g i = false

theorem inside_turn (d : Nat) (g : Nat → Bool) : Inside d (turn d g) := fun _ h => turn_out d g h

theorem inside_turns {d : Nat} {g : Nat → Bool} (h : Inside d g) (k : Nat) : Inside d (turns d k g) := by
  cases k with
  | zero => exact h
  | succ k => exact inside_turn d _

theorem inside_pattern {d w : Nat} (h : w < 2 ^ (d * d)) : Inside d (pattern w) := by
  intro i hi
  exact Nat.testBit_lt_two_pow (lt_of_lt_of_le h (Nat.pow_le_pow_right (by norm_num) (by omega)))

theorem turns_four {d : Nat} {g : Nat → Bool} (h : Inside d g) : turns d 4 g = g := by
  funext i
  by_cases hi : i < d * d
  · have h1 := src_lt hi
    have h2 := src_lt h1
    have h3 := src_lt h2
    show turn d (turn d (turn d (turn d g))) i = g i
    rw [turn_apply _ _ hi, turn_apply _ _ h1, turn_apply _ _ h2, turn_apply _ _ h3, src_four hi]
  · rw [h i hi]; exact turn_out d _ hi

theorem turns_add (d a b : Nat) (g : Nat → Bool) : turns d (a + b) g = turns d a (turns d b g) := by
  induction a with
  | zero => rw [Nat.zero_add]; rfl
  | succ a ih => rw [Nat.succ_add, turns, ih]; rfl

theorem diff_turn {d : Nat} (hd : d * d ≤ 64) {g h : Nat → Bool} (hg : Inside d g) (hh : Inside d h) :
    diff (turn d g) (turn d h) = diff g h := by
  unfold diff
  apply Finset.card_bij' (fun i _ => src d i) (fun i _ => src d (src d (src d i)))
  · intro i hi
    simp only [Finset.mem_filter, Finset.mem_range] at hi ⊢
    by_cases h1 : i < d * d
    · rw [turn_apply _ _ h1, turn_apply _ _ h1] at hi
      exact ⟨lt_of_lt_of_le (src_lt h1) hd, hi.2⟩
    · exact absurd (by rw [turn_out _ _ h1, turn_out _ _ h1]) hi.2
  · intro i hi
    simp only [Finset.mem_filter, Finset.mem_range] at hi ⊢
    by_cases h1 : i < d * d
    · have h2 := src_lt (src_lt (src_lt h1))
      rw [turn_apply _ _ h2, turn_apply _ _ h2, src_four h1]
      exact ⟨lt_of_lt_of_le h2 hd, hi.2⟩
    · exact absurd (by rw [hg i h1, hh i h1]) hi.2
  · intro i hi
    simp only [Finset.mem_filter, Finset.mem_range] at hi
    by_cases h1 : i < d * d
    · exact src_four h1
    · exact absurd (by rw [turn_out _ _ h1, turn_out _ _ h1]) hi.2
  · intro i hi
    simp only [Finset.mem_filter, Finset.mem_range] at hi
    by_cases h1 : i < d * d
    · exact src_four h1
    · exact absurd (by rw [hg i h1, hh i h1]) hi.2

theorem diff_turns {d : Nat} (hd : d * d ≤ 64) {g h : Nat → Bool} (hg : Inside d g) (hh : Inside d h)
    (k : Nat) : diff (turns d k g) (turns d k h) = diff g h := by
  induction k with
  | zero => rfl
  | succ k ih => rw [turns, turns, diff_turn hd (inside_turns hg k) (inside_turns hh k), ih]

theorem diff_comm (g h : Nat → Bool) : diff g h = diff h g := by
  unfold diff; congr 1; ext i; simp [eq_comm]

theorem diff_triangle (f g h : Nat → Bool) : diff f h ≤ diff f g + diff g h := by
  unfold diff
  rw [← Finset.card_union_add_card_inter]
  apply le_trans _ (Nat.le_add_right _ _)
  apply Finset.card_le_card
  intro i
  simp only [Finset.mem_filter, Finset.mem_range, Finset.mem_union]
  rintro ⟨h1, h2⟩
  by_cases hc : f i = g i
  · right; exact ⟨h1, fun h3 => h2 (hc.trans h3)⟩
  · left; exact ⟨h1, hc⟩

/-! ### Counting bits -/

/-- Sum of the binary digits. -/
def ones (w : Nat) : Nat :=
  if h : w = 0 then 0 else w % 2 + ones (w / 2)
termination_by w
decreasing_by exact Nat.div_lt_self (by omega) (by decide)

theorem ones_rec (w : Nat) : ones w = w % 2 + ones (w / 2) := by
  by_cases h : w = 0
  · subst h; simp [ones]
  · rw [ones]; simp [h]

theorem ones_clear (w : Nat) (h : w ≠ 0) : ones (w &&& (w - 1)) + 1 = ones w := by
  induction w using Nat.strong_induction_on with
  | _ w ih =>
    rw [ones_rec (w &&& (w - 1)), ones_rec w, Nat.and_div_two]
    have hm : (w &&& (w - 1)) % 2 = 0 := by
      have := Nat.and_mod_two_pow (a := w) (b := w - 1) (n := 1)
      rw [pow_one] at this
      rw [this]
      rcases Nat.mod_two_eq_zero_or_one w with h1 | h1
      · rw [h1]; simp
      · rw [show (w - 1) % 2 = 0 by omega]; simp
    rw [hm]
    rcases Nat.mod_two_eq_zero_or_one w with h1 | h1
    · rw [h1, show (w - 1) / 2 = w / 2 - 1 by omega]
      have := ih (w / 2) (by omega) (by omega)
      omega
    · rw [h1, show (w - 1) / 2 = w / 2 by omega, Nat.and_self]
      omega

theorem ones_lt (n : Nat) : ∀ w, w < 2 ^ n → ones w ≤ n := by
  induction n with
  | zero => intro w h; have : w = 0 := by simpa using h
            subst this; simp [ones]
  | succ n ih =>
    intro w h
    rw [ones_rec]
    rw [pow_succ] at h
    have := ih (w / 2) (by omega)
    omega

theorem popCountReal_eq (w : Nat) (h : w < 2 ^ 64) : popCountReal w = ones w := by
  induction w using Nat.strong_induction_on with
  | _ w ih =>
    rw [popCountReal]
    by_cases h0 : w = 0
    · subst h0; simp [ones]
    · rw [dif_neg h0]
      have hlt : w &&& (w - 1) < w := Nat.lt_of_le_of_lt Nat.and_le_right (by omega)
      rw [ih _ hlt (by omega), ones_clear w h0]
      have := ones_lt 64 w h
      omega

theorem ones_split (k w : Nat) : ones w = ones (w % 2 ^ k) + ones (w / 2 ^ k) := by
  induction k generalizing w with
  | zero =>
    have : ones 0 = 0 := by rw [ones]; simp
    rw [pow_zero, Nat.mod_one, Nat.div_one, this, Nat.zero_add]
  | succ k ih =>
    rw [ones_rec w, ones_rec (w % 2 ^ (k + 1)), ih (w / 2)]
    have e1 : w % 2 ^ (k + 1) % 2 = w % 2 := by
      rw [pow_succ]; exact Nat.mod_mul_left_mod w (2 ^ k) 2
    have e2 : w % 2 ^ (k + 1) / 2 = w / 2 % 2 ^ k := by
      rw [pow_succ, mul_comm]; exact Nat.mod_mul_right_div_self w 2 (2 ^ k)
    have e3 : w / 2 ^ (k + 1) = w / 2 / 2 ^ k := by
      rw [pow_succ, mul_comm, Nat.div_div_eq_div_mul]
    rw [e1, e2, e3]; omega

theorem popCount_eq (w : Nat) : popCount w = ones w := by
  induction w using Nat.strong_induction_on with
  | _ w ih =>
    rw [popCount]
    by_cases h0 : w = 0
    · subst h0; simp [ones]
    · rw [dif_neg h0, Nat.shiftRight_eq_div_pow, ih _ (Nat.div_lt_self (by omega) (by decide)),
        show (4096 - 1 : Nat) = 2 ^ 12 - 1 by norm_num, Nat.and_two_pow_sub_one_eq_mod]
      unfold popCountTable
      rw [popCountReal_eq _ (lt_trans (Nat.mod_lt _ (by norm_num)) (by norm_num)), ← ones_split 12 w]

theorem ones_card (n : Nat) : ∀ w, w < 2 ^ n →
    ones w = ((Finset.range n).filter fun i => w.testBit i = true).card := by
  induction n with
  | zero => intro w h; have : w = 0 := by simpa using h
            subst this; simp [ones]
  | succ n ih =>
    intro w h
    rw [pow_succ] at h
    rw [ones_rec, ih (w / 2) (by omega), Finset.card_filter, Finset.card_filter, Finset.sum_range_succ']
    simp only [Nat.testBit_succ, Nat.testBit_zero]
    rcases Nat.mod_two_eq_zero_or_one w with h1 | h1
    · simp [h1]
    · simp [h1, Nat.add_comm]

/-- The distance computed is the number of differing cells. -/
theorem hammingDistance_eq (a b : Nat) (ha : a < 2 ^ 64) (hb : b < 2 ^ 64) :
    hammingDistance a b = diff (pattern a) (pattern b) := by
  unfold hammingDistance diff pattern
  rw [popCount_eq, ones_card 64 _ (Nat.xor_lt_two_pow ha hb)]
  congr 1
  ext i
  simp only [Finset.mem_filter, Nat.testBit_xor]
  cases a.testBit i <;> cases b.testBit i <;> simp

/-! ### The scan -/

theorem scan_sorted (codes : List Nat) :
    (scan codes).Pairwise fun a b => a.1.1 < b.1.1 ∨ a.1.1 = b.1.1 ∧ a.1.2 < b.1.2 := by
  unfold scan
  rw [List.pairwise_flatMap]
  constructor
  · intro id _
    rw [List.pairwise_map]
    exact (List.pairwise_lt_range).imp (fun h => Or.inr ⟨rfl, h⟩)
  · refine (List.pairwise_lt_range).imp ?_
    intro a b hab x hx y hy
    simp only [List.mem_map] at hx hy
    obtain ⟨_, _, rfl⟩ := hx
    obtain ⟨_, _, rfl⟩ := hy
    exact Or.inl hab

theorem mem_scan {codes : List Nat} {e : (Nat × Nat) × Nat} :
    e ∈ scan codes ↔ e.1.1 < codes.length ∧ e.1.2 < 4 ∧ e.2 = codes.getD e.1.1 0 := by
  unfold scan
  simp only [List.mem_flatMap, List.mem_range, List.mem_map]
  constructor
  · rintro ⟨id, h1, rot, h2, rfl⟩; exact ⟨h1, h2, rfl⟩
  · rintro ⟨h1, h2, h3⟩
    refine ⟨e.1.1, h1, e.1.2, h2, ?_⟩
    rw [← h3]

/-- The first smallest element of a list. -/
theorem foldl_consider (rCodes : List Nat) (l : List ((Nat × Nat) × Nat)) :
    ∀ b : Best,
      let D := fun e : (Nat × Nat) × Nat => hammingDistance (rCodes.getD e.1.2 0) e.2
      (l.foldl (consider rCodes) b = b ∧ ∀ e ∈ l, b.hamming ≤ D e) ∨
      ∃ pre x post, l = pre ++ x :: post ∧
        l.foldl (consider rCodes) b = ⟨D x, x.1.2, x.1.1, x.2⟩ ∧ D x < b.hamming ∧
        (∀ e ∈ pre, D x < D e) ∧ ∀ e ∈ post, D x ≤ D e := by
  induction l with
  | nil => intro b; left; simp
  | cons a l ih =>
    intro b D
    rw [List.foldl_cons]
    have hst : consider rCodes b a = if D a < b.hamming then ⟨D a, a.1.2, a.1.1, a.2⟩ else b := rfl
    by_cases h : D a < b.hamming
    · rw [if_pos h] at hst
      rw [hst]
      rcases ih ⟨D a, a.1.2, a.1.1, a.2⟩ with ⟨h1, h2⟩ | ⟨pre, x, post, h1, h2, h3, h4, h5⟩
      · right
        exact ⟨[], a, l, rfl, h1, h, by simp, h2⟩
      · right
        refine ⟨a :: pre, x, post, by rw [h1]; rfl, h2, lt_trans h3 h, ?_, h5⟩
        intro e he
        rcases List.mem_cons.1 he with rfl | he
        · exact h3
        · exact h4 e he
    · rw [if_neg h] at hst
      rw [hst]
      rcases ih b with ⟨h1, h2⟩ | ⟨pre, x, post, h1, h2, h3, h4, h5⟩
      · left
        refine ⟨h1, ?_⟩
        intro e he
        rcases List.mem_cons.1 he with rfl | he
        · exact not_lt.1 h
        · exact h2 e he
      · right
        refine ⟨a :: pre, x, post, by rw [h1]; rfl, h2, h3, ?_, h5⟩
        intro e he
        rcases List.mem_cons.1 he with rfl | he
        · exact lt_of_lt_of_le h3 (not_lt.1 h)
        · exact h4 e he

end Kalibr.Tag
