import Verif.Tag.Distance
import Verif.Tag.Table36h9

/-!
# A faster check of distances, for words of 36 bits

As in `Distance`, with the bits counted first in lanes of six and the six lanes added afterwards.
-/

namespace Kalibr.Tag

/-- The same mask at the same place of every field. -/
theorem pack_field (K s mask : Nat) (l : List Nat) (h : ∀ x ∈ l, x < 2 ^ K) (hK : 0 < K) (hs : s ≤ K)
    (hm : mask < 2 ^ (K - s)) :
    (pack K l >>> s) &&& (pack K (l.map fun _ => 1) * mask) = pack K (l.map fun x => (x >>> s) &&& mask) := by
  have hmK : mask < 2 ^ K := lt_of_lt_of_le hm (Nat.pow_le_pow_right (by norm_num) (by omega))
  rw [pack_const]
  apply testBit_ext_fields hK
  intro q j hj
  rw [Nat.testBit_and, Nat.testBit_shiftRight, pack_testBit K (l.map fun _ => mask)
      (by intro x hx; obtain ⟨_, _, rfl⟩ := List.mem_map.1 hx; exact hmK) q j hj,
    pack_testBit K (l.map fun x => (x >>> s) &&& mask) _ q j hj, getD_map_lt, getD_map_lt]
  · by_cases hq : q < l.length
    · rw [if_pos hq, if_pos hq, Nat.testBit_and, Nat.testBit_shiftRight]
      by_cases hsj : s + j < K
      · have e : s + (K * q + j) = K * q + (s + j) := by ring
        rw [e, pack_testBit K l h q _ hsj]
      · have : mask.testBit j = false :=
          Nat.testBit_lt_two_pow (lt_of_lt_of_le hm (Nat.pow_le_pow_right (by norm_num) (by omega)))
        rw [this, Bool.and_false, Bool.and_false]
    · rw [if_neg hq, if_neg hq]; simp
  · intro x hx
    obtain ⟨y, hy, rfl⟩ := List.mem_map.1 hx
    exact lt_of_le_of_lt Nat.and_le_right hmK

theorem pack_append (K : Nat) (a b : List Nat) : pack K (a ++ b) = 2 ^ (K * a.length) * pack K b + pack K a := by
  induction a with
  | nil => simp [pack]
  | cons x a ih => rw [List.cons_append, pack, ih, pack, List.length_cons, Nat.mul_succ, pow_add]; ring

/-- Fields of fields. -/
theorem pack_flat (K n : Nat) (f : Nat → List Nat) (hf : ∀ x, (f x).length = n) (l : List Nat) :
    pack (K * n) (l.map fun x => pack K (f x)) = pack K (l.flatMap f) := by
  induction l with
  | nil => rfl
  | cons x l ih =>
    rw [List.map_cons, pack, ih, List.flatMap_cons, pack_append, hf]

/-- Six lanes of six bits. -/
def lanes (x : Nat) : List Nat :=
  [x % 64, x / 64 % 64, x / 4096 % 64, x / 262144 % 64, x / 16777216 % 64, x / 1073741824 % 64]

theorem pack_lanes (x : Nat) (h : x < 2 ^ 36) : pack 6 (lanes x) = x := by
  simp only [lanes, pack]
  omega

theorem ones_lanes (x : Nat) (h : x < 2 ^ 36) :
    ones x = ones (x % 64) + (ones (x / 64 % 64) + (ones (x / 4096 % 64) + (ones (x / 262144 % 64)
      + (ones (x / 16777216 % 64) + ones (x / 1073741824 % 64))))) := by
  have s : ∀ y, ones y = ones (y % 64) + ones (y / 64) := fun y => ones_split 6 y
  have last : x / 1073741824 % 64 = x / 1073741824 := Nat.mod_eq_of_lt (by omega)
  rw [last, s x, s (x / 64), s (x / 64 / 64), s (x / 64 / 64 / 64), s (x / 64 / 64 / 64 / 64)]
  simp only [Nat.div_div_eq_div_mul, Nat.reduceMul]

/-- Sum of the six lanes of every field. -/
def sumLanes (A R63 : Nat) : Nat → Nat
  | 0 => 0
  | b + 1 => Nat.add (sumLanes A R63 b) (Nat.land (Nat.shiftRight A (Nat.mul 6 b)) R63)

theorem sumLanes_eq (l : List Nat) (h : ∀ x ∈ l, x < 2 ^ 36) (b : Nat) (hb : b ≤ 6) :
    sumLanes (pack 36 l) (pack 36 (l.map fun _ => 1) * 63) b
      = pack 36 (l.map fun x => ((List.range b).map fun i => (x >>> (6 * i)) &&& 63).sum) := by
  induction b with
  | zero =>
    have := pack_const 36 0 l
    rw [Nat.mul_zero] at this
    simpa [sumLanes] using this
  | succ b ih =>
    rw [sumLanes]
    show sumLanes _ _ b + ((pack 36 l >>> (6 * b)) &&& (pack 36 (l.map fun _ => 1) * 63)) = _
    rw [ih (by omega), pack_field 36 (6 * b) 63 l h (by norm_num) (by omega), pack_map_add]
    · congr 1
      apply List.map_congr_left
      intro x _
      rw [List.range_succ, List.map_append, List.sum_append]
      simp
    · calc (63 : Nat) < 2 ^ 6 := by norm_num
        _ ≤ 2 ^ (36 - 6 * b) := Nat.pow_le_pow_right (by norm_num) (by omega)

theorem lane_sum (a b c d e f : Nat) (ha : a ≤ 6) (hb : b ≤ 6) (hc : c ≤ 6) (hd : d ≤ 6) (he : e ≤ 6)
    (hf : f ≤ 6) :
    ((List.range 6).map fun i =>
      ((64 * (64 * (64 * (64 * (64 * (64 * 0 + f) + e) + d) + c) + b) + a) >>> (6 * i)) &&& 63).sum
      = a + (b + (c + (d + (e + f)))) := by
  have h63 : ∀ z : Nat, z &&& 63 = z % 64 := fun z => Nat.and_two_pow_sub_one_eq_mod z 6
  have step : ∀ z o i : Nat, o ≤ 6 → (64 * z + o) >>> (6 * (i + 1)) = z >>> (6 * i) := by
    intro z o i ho
    rw [show 6 * (i + 1) = 6 + 6 * i by ring, Nat.shiftRight_add]
    congr 1
    rw [Nat.shiftRight_eq_div_pow]
    omega
  have mod : ∀ z o : Nat, o ≤ 6 → (64 * z + o) % 64 = o := by
    intro z o ho
    omega
  simp only [show List.range 6 = [0, 0 + 1, 0 + 1 + 1, 0 + 1 + 1 + 1, 0 + 1 + 1 + 1 + 1, 0 + 1 + 1 + 1 + 1 + 1] from rfl,
    List.map_cons, List.map_nil, List.sum_cons, List.sum_nil]
  rw [step _ a _ ha, step _ a _ ha, step _ a _ ha, step _ a _ ha, step _ a _ ha,
    step _ b _ hb, step _ b _ hb, step _ b _ hb, step _ b _ hb,
    step _ c _ hc, step _ c _ hc, step _ c _ hc, step _ d _ hd, step _ d _ hd, step _ e _ he]
  simp only [h63, Nat.mul_zero, Nat.shiftRight_zero]
  rw [mod _ a ha, mod _ b hb, mod _ c hc, mod _ d hd, mod _ e he]
  omega

/-- Every field of `P` differs from `w` in at least the number of bits whose complement to 64 is in
the fields of `T`. -/
def rowOk36 (R R6 R63 T H P w : Nat) : Bool :=
  force (Nat.xor P (Nat.mul R w)) fun X => force (sumBits X R6 6) fun A =>
    Nat.beq (Nat.land (Nat.add (sumLanes A R63 6) T) H) H

/-- One in each of the six lanes. -/
def laneOnes : Nat := 1090785345

theorem rowOk36_sound (m w : Nat) (l : List Nat) (hm : m ≤ 64) (h : ∀ x ∈ l, x < 2 ^ 36) (hw : w < 2 ^ 36)
    (hr : (let R := pack 36 (l.map fun _ => 1)
      rowOk36 R (R * laneOnes) (R * 63) (R * (64 - m)) (R * 64) (pack 36 l) w) = true) :
    ∀ x ∈ l, m ≤ ones (x ^^^ w) := by
  simp only [rowOk36, force_eq] at hr
  obtain ⟨l', hl'⟩ : ∃ l', l' = l.map fun x => x ^^^ w := ⟨_, rfl⟩
  have hlt : ∀ x ∈ l', x < 2 ^ 36 := by
    intro x hx
    rw [hl'] at hx
    obtain ⟨y, hy, rfl⟩ := List.mem_map.1 hx
    exact Nat.xor_lt_two_pow (h y hy) hw
  have hx : Nat.xor (pack 36 l) (Nat.mul (pack 36 (l.map fun _ => 1)) w) = pack 36 l' := by
    rw [hl']; exact pack_xor 36 w l (by norm_num) h hw
  have hR : pack 36 (l.map fun _ => 1) = pack 36 (l'.map fun _ => 1) := by rw [hl', List.map_map]; rfl
  rw [hx, hR] at hr
  have hflat : pack 36 l' = pack 6 (l'.flatMap lanes) := by
    rw [← pack_flat 6 6 lanes (fun _ => rfl) l']
    congr 1
    conv_lhs => rw [← List.map_id' l']
    exact List.map_congr_left fun x hx => (pack_lanes x (hlt x hx)).symm
  have hones : pack 36 (l'.map fun _ => 1) * laneOnes = pack 6 ((l'.flatMap lanes).map fun _ => 1) := by
    rw [pack_const, List.map_flatMap, ← pack_flat 6 6 (fun x => (lanes x).map fun _ => 1) (fun _ => rfl)]
    have e : ∀ x : Nat, pack 6 ((lanes x).map fun _ => 1) = laneOnes := by
      intro x
      simp only [lanes, List.map_cons, List.map_nil, pack, laneOnes]
      norm_num
    simp only [e]
  have hlane : ∀ x ∈ l'.flatMap lanes, x < 2 ^ 6 := by
    intro x hx
    obtain ⟨y, _, hy⟩ := List.mem_flatMap.1 hx
    simp only [lanes, List.mem_cons, List.not_mem_nil, or_false] at hy
    rcases hy with rfl | rfl | rfl | rfl | rfl | rfl <;> exact Nat.mod_lt _ (by norm_num)
  have hA : sumBits (pack 36 l') (pack 36 (l'.map fun _ => 1) * laneOnes) 6
      = pack 36 (l'.map fun x => pack 6 ((lanes x).map fun y => ones (y % 2 ^ 6))) := by
    rw [hflat, hones, sumBits_eq 6 _ hlane 6 le_rfl, List.map_flatMap,
      ← pack_flat 6 6 (fun x => (lanes x).map fun y => ones (y % 2 ^ 6)) (fun _ => rfl)]
  rw [hA] at hr
  have hmm : ∀ y, ones (y % 64) ≤ 6 := fun y => ones_lt 6 _ (Nat.mod_lt _ (by norm_num))
  have hval : ∀ x, pack 6 ((lanes x).map fun y => ones (y % 2 ^ 6))
      = 64 * (64 * (64 * (64 * (64 * (64 * 0 + ones (x / 1073741824 % 64)) + ones (x / 16777216 % 64))
        + ones (x / 262144 % 64)) + ones (x / 4096 % 64)) + ones (x / 64 % 64)) + ones (x % 64) := by
    intro x
    simp only [lanes, List.map_cons, List.map_nil, pack]
    norm_num
  have hA36 : ∀ x ∈ l'.map (fun x => pack 6 ((lanes x).map fun y => ones (y % 2 ^ 6))), x < 2 ^ 36 := by
    intro x hx
    obtain ⟨y, _, rfl⟩ := List.mem_map.1 hx
    rw [hval]
    have a0 := hmm y
    have a1 := hmm (y / 64)
    have a2 := hmm (y / 4096)
    have a3 := hmm (y / 262144)
    have a4 := hmm (y / 16777216)
    have a5 := hmm (y / 1073741824)
    omega
  have hR2 : pack 36 (l'.map fun _ => 1)
      = pack 36 ((l'.map fun x => pack 6 ((lanes x).map fun y => ones (y % 2 ^ 6))).map fun _ => 1) := by
    rw [List.map_map]; rfl
  have hsum : sumLanes (pack 36 (l'.map fun x => pack 6 ((lanes x).map fun y => ones (y % 2 ^ 6))))
      (pack 36 (l'.map fun _ => 1) * 63) 6 = pack 36 (l'.map ones) := by
    rw [hR2, sumLanes_eq _ hA36 6 le_rfl, List.map_map]
    congr 1
    apply List.map_congr_left
    intro x hx
    simp only [Function.comp]
    rw [hval, ones_lanes x (hlt x hx)]
    exact lane_sum _ _ _ _ _ _ (hmm _) (hmm _) (hmm _) (hmm _) (hmm _) (hmm _)
  rw [hsum] at hr
  have hr' := Nat.eq_of_beq_eq_true hr
  rw [pack_const, pack_const] at hr'
  change ((pack 36 _ + pack 36 _) &&& _) = _ at hr'
  rw [show l'.map ones = l'.map (fun x => ones x) from rfl, pack_map_add] at hr'
  intro x hxl
  have hxl' : x ^^^ w ∈ l' := by rw [hl']; exact List.mem_map_of_mem hxl
  obtain ⟨q, hq, hqe⟩ := List.getElem_of_mem hxl'
  have hbit := congrArg (fun n => n.testBit (36 * q + 6)) hr'
  simp only [Nat.testBit_and] at hbit
  have h64 : ∀ y ∈ List.map (fun _ => 64) l', y < 2 ^ 36 := by
    intro y hy
    obtain ⟨z, _, rfl⟩ := List.mem_map.1 hy
    norm_num
  have hS : ∀ y ∈ List.map (fun x => ones x + (64 - m)) l', y < 2 ^ 36 := by
    intro y hy
    obtain ⟨z, hz, rfl⟩ := List.mem_map.1 hy
    have := ones_lt 36 z (hlt z hz)
    omega
  rw [pack_testBit 36 _ h64 q 6 (by omega), pack_testBit 36 _ hS q 6 (by omega)] at hbit
  rw [getD_map_lt, getD_map_lt, if_pos hq, if_pos hq] at hbit
  simp only [List.getD_eq_getElem _ _ hq] at hbit
  have h6 : Nat.testBit 64 6 = true := by decide
  rw [h6, Bool.and_true, hqe] at hbit
  by_contra hc
  have : ones (x ^^^ w) + (64 - m) < 2 ^ 6 := by
    norm_num; omega
  rw [Nat.testBit_lt_two_pow this] at hbit
  cases hbit

/-- Every word of the list against all later ones, in a longer table that begins with the list. -/
def later36 (m : Nat) : List Nat → Nat → Nat → Bool
  | [], _, _ => true
  | w :: l, R, P =>
    force (Nat.shiftRight R 36) fun R' => force (Nat.shiftRight P 36) fun P' =>
      rowOk36 R' (Nat.mul R' laneOnes) (Nat.mul R' 63) (Nat.mul R' (64 - m)) (Nat.mul R' 64) P' w
        && later36 m l R' P'

theorem later36_sound (m : Nat) (hm : m ≤ 64) (l s : List Nat) (h : ∀ x ∈ l ++ s, x < 2 ^ 36)
    (hc : later36 m l (pack 36 ((l ++ s).map fun _ => 1)) (pack 36 (l ++ s)) = true) :
    l.Pairwise (fun x y => m ≤ ones (y ^^^ x)) ∧ ∀ x ∈ l, ∀ y ∈ s, m ≤ ones (y ^^^ x) := by
  induction l with
  | nil => exact ⟨List.Pairwise.nil, by simp⟩
  | cons w l ih =>
    rw [later36, force_eq, force_eq] at hc
    have e1 : Nat.shiftRight (pack 36 ((w :: l ++ s).map fun _ => 1)) 36 = pack 36 ((l ++ s).map fun _ => 1) :=
      pack_shift 36 1 _ (by norm_num)
    have e2 : Nat.shiftRight (pack 36 (w :: l ++ s)) 36 = pack 36 (l ++ s) :=
      pack_shift 36 w _ (h w (by simp))
    rw [e1, e2, Bool.and_eq_true] at hc
    have hl : ∀ x ∈ l ++ s, x < 2 ^ 36 := fun x hx => h x (by
      rw [List.cons_append]; exact List.mem_cons_of_mem _ hx)
    have hrow := rowOk36_sound m w (l ++ s) hm hl (h w (by simp)) hc.1
    obtain ⟨i1, i2⟩ := ih hl hc.2
    refine ⟨List.Pairwise.cons (fun x hx => hrow x (by simp [hx])) i1, ?_⟩
    intro x hx y hy
    rcases List.mem_cons.1 hx with rfl | hx
    · exact hrow y (by simp [hy])
    · exact i2 x hx y hy

/-- Every word of the list, turned `k` times, against all words of a table. -/
def turned36 (k R R6 R63 T H P : Nat) : List Nat → Bool
  | [] => true
  | w :: l => force (Nat.rec w (fun _ v => rowsVal v 6 6) k) fun v =>
      rowOk36 R R6 R63 T H P v && turned36 k R R6 R63 T H P l

theorem turned36_sound (m k : Nat) (hm : m ≤ 64) (L l : List Nat) (hL : ∀ x ∈ L, x < 2 ^ 36)
    (hc : (let R := pack 36 (L.map fun _ => 1)
      turned36 (k + 1) R (R * laneOnes) (R * 63) (R * (64 - m)) (R * 64) (pack 36 L) l) = true) :
    ∀ w ∈ l, ∀ x ∈ L, m ≤ ones (x ^^^ Nat.rec w (fun _ v => rowsVal v 6 6) (k + 1)) := by
  induction l with
  | nil => simp
  | cons w l ih =>
    simp only [turned36, force_eq, Bool.and_eq_true] at hc
    intro v hv x hx
    rcases List.mem_cons.1 hv with rfl | hv
    · exact rowOk36_sound m _ L hm hL (by exact rowsVal_lt _ 6 6) hc.1 x hx
    · exact ih hc.2 v hv x hx

/-- A table in pieces, packed. -/
def packList (f : Nat → Nat) : List (List Nat) → Nat
  | [] => 0
  | c :: cs => Nat.add (Nat.mul (Nat.pow 2 (Nat.mul 36 c.length)) (packList f cs)) (pack 36 (c.map f))

theorem packList_eq (f : Nat → Nat) (cs : List (List Nat)) : packList f cs = pack 36 (cs.flatten.map f) := by
  induction cs with
  | nil => rfl
  | cons c cs ih =>
    rw [packList, ih, List.flatten_cons, List.map_append, pack_append, List.length_map]
    rfl

theorem pack_drop (K n : Nat) (L : List Nat) (h : ∀ x ∈ L, x < 2 ^ K) : pack K L >>> (K * n) = pack K (L.drop n) := by
  induction n generalizing L with
  | zero => simp
  | succ n ih =>
    cases L with
    | nil => simp [pack]
    | cons x L =>
      rw [Nat.mul_succ, Nat.add_comm, Nat.shiftRight_add, pack_shift K x L (h x (by simp)),
        ih L (fun y hy => h y (by simp [hy])), List.drop_succ_cons]

/-- The words of a piece of `t36h9`, turned once and twice, against the table. -/
def turnedCheck (l : List Nat) : Bool :=
  force unit36h9 fun R => force packed36h9 fun P =>
    force (Nat.mul R laneOnes) fun R6 => force (Nat.mul R 63) fun R63 =>
      force (Nat.mul R (64 - 9)) fun T => force (Nat.mul R 64) fun H =>
        turned36 1 R R6 R63 T H P l && turned36 2 R R6 R63 T H P l

/-- The words of piece `i` of `t36h9` against the later words of the table. -/
def laterCheck (i : Nat) (l : List Nat) : Bool :=
  force (Nat.shiftRight unit36h9 (Nat.mul 4680 i)) fun R =>
    force (Nat.shiftRight packed36h9 (Nat.mul 4680 i)) fun P => later36 9 l R P

/-- The words are below `2 ^ 36`. -/
theorem t36h9_lt : ∀ x ∈ t36h9, x < 2 ^ 36 := by
  have h : (pieces36h9.all fun c => allLt (2 ^ 36) c) = true := by decide +kernel
  intro x hx
  obtain ⟨c, hc, hxc⟩ := List.mem_flatten.1 hx
  exact allLt_sound (List.all_eq_true.1 h c hc) x hxc

theorem packed36h9_eq : packed36h9 = pack 36 t36h9 := by
  have h : Nat.beq (packList (fun x => x) pieces36h9) packed36h9 = true := by decide +kernel
  have := packList_eq (fun x => x) pieces36h9
  rw [List.map_id'] at this
  rw [t36h9, ← this, Nat.eq_of_beq_eq_true h]

theorem unit36h9_eq : unit36h9 = pack 36 (t36h9.map fun _ => 1) := by
  have h : Nat.beq (packList (fun _ => 1) pieces36h9) unit36h9 = true := by decide +kernel
  rw [t36h9, ← packList_eq (fun _ => 1) pieces36h9, Nat.eq_of_beq_eq_true h]

theorem turnedCheck_sound (l : List Nat) (hc : turnedCheck l = true) :
    ∀ w ∈ l, ∀ x ∈ t36h9, 9 ≤ ones (x ^^^ rowsVal w 6 6) ∧ 9 ≤ ones (x ^^^ rowsVal (rowsVal w 6 6) 6 6) := by
  unfold turnedCheck at hc
  rw [force_eq, force_eq, force_eq, force_eq, force_eq, force_eq, unit36h9_eq, packed36h9_eq,
    Bool.and_eq_true] at hc
  have hL := t36h9_lt
  generalize t36h9 = L at hc hL ⊢
  intro w hw x hx
  exact ⟨turned36_sound 9 0 (by norm_num) L l hL hc.1 w hw x hx,
    turned36_sound 9 1 (by norm_num) L l hL hc.2 w hw x hx⟩

theorem laterCheck_sound (i : Nat) (l s : List Nat) (hs : t36h9.drop (130 * i) = l ++ s)
    (hc : laterCheck i l = true) :
    l.Pairwise (fun x y => 9 ≤ ones (y ^^^ x)) ∧ ∀ x ∈ l, ∀ y ∈ s, 9 ≤ ones (y ^^^ x) := by
  unfold laterCheck at hc
  rw [force_eq, force_eq, unit36h9_eq, packed36h9_eq] at hc
  have e : Nat.mul 4680 i = 36 * (130 * i) := by
    show 4680 * i = _
    ring
  have e1 : Nat.shiftRight (pack 36 (t36h9.map fun _ => 1)) (Nat.mul 4680 i) = pack 36 ((l ++ s).map fun _ => 1) := by
    rw [e, ← hs, List.map_drop]
    refine pack_drop 36 (130 * i) _ ?_
    intro x hx
    obtain ⟨_, _, rfl⟩ := List.mem_map.1 hx
    norm_num
  have e2 : Nat.shiftRight (pack 36 t36h9) (Nat.mul 4680 i) = pack 36 (l ++ s) := by
    rw [e, ← hs]
    exact pack_drop 36 (130 * i) _ t36h9_lt
  rw [e1, e2] at hc
  exact later36_sound 9 (by norm_num) l s
    (fun x hx => t36h9_lt x (List.mem_of_mem_drop (i := 130 * i) (by rw [hs]; exact hx))) hc

end Kalibr.Tag
