import Verif.Bag.Model
import Mathlib.Combinatorics.Pigeonhole

/-!
# C156: extracting a bag and making a bag again
-/

namespace Kalibr.Bag

theorem str_ne (n : Nat) : str n ≠ [] := by
  unfold str
  by_cases h : n = 0
  · rw [if_pos h]; simp
  · rw [if_neg h]
    simpa [Nat.digits_eq_nil_iff_eq_zero] using h

theorem str_value (n : Nat) : Nat.ofDigits 10 (str n).reverse = n := by
  unfold str
  by_cases h : n = 0
  · rw [if_pos h, h]; rfl
  · rw [if_neg h, List.reverse_reverse, Nat.ofDigits_digits]

theorem str_lt (n : Nat) : ∀ d ∈ str n, d < 10 := by
  unfold str
  by_cases h : n = 0
  · rw [if_pos h]; simp
  · rw [if_neg h]
    intro d hd
    exact Nat.digits_lt_base (by norm_num) (List.mem_reverse.1 hd)

theorem str_length {n k : Nat} (hk : 0 < k) (h : n < 10 ^ k) : (str n).length ≤ k := by
  unfold str
  by_cases h0 : n = 0
  · rw [if_pos h0]; simp only [List.length_singleton]; omega
  · rw [if_neg h0, List.length_reverse]
    exact (Nat.digits_length_le_iff (by norm_num) n).2 h

theorem ofDigits_replicate (k : Nat) : Nat.ofDigits 10 (List.replicate k 0) = 0 := by
  induction k with
  | zero => rfl
  | succ k ih => rw [List.replicate_succ, Nat.ofDigits_cons, ih]

theorem pad9_length {n : Nat} (h : n < 10 ^ 9) : (pad9 n).length = 9 := by
  have := str_length (by norm_num) h
  unfold pad9
  rw [List.length_append, List.length_replicate]
  omega

theorem pad9_value (n : Nat) : Nat.ofDigits 10 (pad9 n).reverse = n := by
  unfold pad9
  rw [List.reverse_append, List.reverse_replicate, Nat.ofDigits_append, str_value, ofDigits_replicate]
  ring

theorem pad9_ne (n : Nat) : pad9 n ≠ [] := by
  unfold pad9
  simp [str_ne]

theorem pad9_lt (n : Nat) : ∀ d ∈ pad9 n, d < 10 := by
  intro d hd
  unfold pad9 at hd
  rcases List.mem_append.1 hd with hd | hd
  · rw [(List.mem_replicate.1 hd).2]; norm_num
  · exact str_lt n d hd

/-- The time stamp read from the name of a file is the one that was written. -/
theorem stamp_name {t : Time} (h : t.nsecs < 10 ^ 9) : stamp (imageName t) = .ok t := by
  have hl : (imageName t).length - 9 = (str t.secs).length := by
    unfold imageName
    rw [List.length_append, pad9_length h]
    omega
  unfold stamp
  rw [hl]
  unfold imageName toInt
  rw [List.take_left, List.drop_left, if_neg (str_ne _), if_neg (pad9_ne _), str_value, pad9_value]
  rfl

theorem name_inj {t u : Time} (ht : t.nsecs < 10 ^ 9) (hu : u.nsecs < 10 ^ 9) (h : imageName t = imageName u) : t = u := by
  have := stamp_name ht
  rw [h, stamp_name hu] at this
  exact (Out.ok.inj this).symm

/-- The value of the digits of the name is the time in nanoseconds. -/
theorem name_value {t : Time} (h : t.nsecs < 10 ^ 9) : Nat.ofDigits 10 (imageName t).reverse = t.total := by
  unfold imageName Time.total
  rw [List.reverse_append, Nat.ofDigits_append, pad9_value, str_value, List.length_reverse, pad9_length h]
  ring

theorem name_lt (t : Time) : ∀ d ∈ imageName t, d < 10 := by
  intro d hd
  unfold imageName at hd
  rcases List.mem_append.1 hd with hd | hd
  · exact str_lt _ d hd
  · exact pad9_lt _ d hd

/-- Strings of digits of the same length are in the order of their values. -/
theorem strLe_iff : ∀ (s t : List Nat), s.length = t.length → (∀ d ∈ s, d < 10) → (∀ d ∈ t, d < 10) →
    (strLe s t = true ↔ Nat.ofDigits 10 s.reverse ≤ Nat.ofDigits 10 t.reverse) := by
  intro s
  induction s with
  | nil =>
    intro t hl _ _
    have : t = [] := List.length_eq_zero_iff.1 hl.symm
    subst this
    simp [strLe]
  | cons a s ih =>
    intro t hl hs ht
    cases t with
    | nil => simp at hl
    | cons b t =>
      have hl' : s.length = t.length := by simpa using hl
      have h := ih t hl' (fun d hd => hs d (by simp [hd])) (fun d hd => ht d (by simp [hd]))
      have bs : Nat.ofDigits 10 s.reverse < 10 ^ s.length := by
        have := Nat.ofDigits_lt_base_pow_length (b := 10) (l := s.reverse) (by norm_num) (fun d hd => hs d (by simp [List.mem_reverse.1 hd]))
        rwa [List.length_reverse] at this
      have bt : Nat.ofDigits 10 t.reverse < 10 ^ s.length := by
        have := Nat.ofDigits_lt_base_pow_length (b := 10) (l := t.reverse) (by norm_num) (fun d hd => ht d (by simp [List.mem_reverse.1 hd]))
        rwa [List.length_reverse, ← hl'] at this
      simp only [strLe, Bool.or_eq_true, decide_eq_true_eq, Bool.and_eq_true, h, List.reverse_cons, Nat.ofDigits_append,
        List.length_reverse, Nat.ofDigits_singleton, ← hl']
      generalize Nat.ofDigits 10 s.reverse = x at bs ⊢
      generalize Nat.ofDigits 10 t.reverse = y at bt ⊢
      generalize 10 ^ s.length = p at bs bt ⊢
      constructor
      · rintro (h | ⟨rfl, h⟩)
        · have : p * (a + 1) ≤ p * b := Nat.mul_le_mul_left p h
          rw [Nat.mul_add] at this
          omega
        · omega
      · intro h
        by_contra hc
        push Not at hc
        rcases Nat.lt_or_ge b a with hba | hba
        · have : p * (b + 1) ≤ p * a := Nat.mul_le_mul_left p hba
          rw [Nat.mul_add] at this
          omega
        · have hab : a = b := by omega
          have := hc.2 hab
          subst hab
          omega

theorem strLe_total : ∀ s t : List Nat, (strLe s t || strLe t s) = true := by
  intro s
  induction s with
  | nil => intro t; simp [strLe]
  | cons a s ih =>
    intro t
    cases t with
    | nil => simp [strLe]
    | cons b t =>
      simp only [strLe, Bool.or_eq_true, decide_eq_true_eq, Bool.and_eq_true]
      have := ih t
      rw [Bool.or_eq_true] at this
      rcases Nat.lt_trichotomy a b with h | h | h
      · exact Or.inl (Or.inl h)
      · rcases this with h' | h'
        · exact Or.inl (Or.inr ⟨h, h'⟩)
        · exact Or.inr (Or.inr ⟨h.symm, h'⟩)
      · exact Or.inr (Or.inl h)

theorem strLe_trans : ∀ s t u : List Nat, strLe s t = true → strLe t u = true → strLe s u = true := by
  intro s
  induction s with
  | nil => intro t u _ _; simp [strLe]
  | cons a s ih =>
    intro t u h1 h2
    cases t with
    | nil => simp [strLe] at h1
    | cons b t =>
      cases u with
      | nil => simp [strLe] at h2
      | cons c u =>
        simp only [strLe, Bool.or_eq_true, decide_eq_true_eq, Bool.and_eq_true] at *
        rcases h1 with h1 | ⟨rfl, h1⟩
        · rcases h2 with h2 | ⟨rfl, h2⟩
          · exact Or.inl (by omega)
          · exact Or.inl h1
        · rcases h2 with h2 | ⟨rfl, h2⟩
          · exact Or.inl h2
          · exact Or.inr ⟨rfl, ih t u h1 h2⟩

variable {Img : Type}

/-- The files written for images of different times. -/
theorem extract_perm (dataset : List (Time × Img)) (hn : (dataset.map Prod.fst).Nodup) (hs : ∀ m ∈ dataset, m.1.nsecs < 10 ^ 9) :
    extractImages dataset = dataset.map fun m => (imageName m.1, m.2) := by
  unfold extractImages
  induction dataset using List.reverseRecOn with
  | nil => rfl
  | append_singleton l m ih =>
    rw [List.map_append, List.nodup_append] at hn
    rw [List.foldl_append, ih hn.1 (fun x hx => hs x (by simp [hx])), List.map_append]
    simp only [List.foldl_cons, List.foldl_nil, imwrite, List.map_cons, List.map_nil]
    congr 1
    rw [List.filter_eq_self]
    intro f hf
    obtain ⟨x, hx, rfl⟩ := List.mem_map.1 hf
    have hxm : x.1 ≠ m.1 := hn.2.2 x.1 (List.mem_map_of_mem hx) m.1 (by simp)
    simp only [ne_eq, decide_not, Bool.not_eq_true', decide_eq_false_iff_not]
    exact fun h => hxm (name_inj (hs x (by simp [hx])) (hs m (by simp)) h)

theorem pack_map (l : List (Time × Img)) (hs : ∀ m ∈ l, m.1.nsecs < 10 ^ 9) :
    packImages (l.map fun m => (imageName m.1, m.2)) = .ok l := by
  induction l with
  | nil => rfl
  | cons m l ih =>
    rw [List.map_cons, packImages, stamp_name (hs m (by simp)), ih (fun x hx => hs x (by simp [hx]))]
    rfl

/-- A permutation of names comes from a permutation of times. -/
theorem names_lift : ∀ {files : List (List Nat × Img)} {l : List (Time × Img)}, files.Perm (l.map fun m => (imageName m.1, m.2)) →
    ∃ k : List (Time × Img), k.Perm l ∧ files = k.map fun m => (imageName m.1, m.2) := by
  intro files l h
  have hc : Relation.Comp (fun x1 x2 => x1 = List.map (fun m : Time × Img => (imageName m.1, m.2)) x2) (fun x1 x2 => x1.Perm x2) files l := by
    rw [List.eq_map_comp_perm]
    exact h
  obtain ⟨k, hk, hp⟩ := hc
  exact ⟨k, hp, hk⟩

/-- C156: images of different times, extracted and packed again, have the times they had, to the nanosecond, none is lost and none added, in
whatever order the folder lists the files.  If the seconds have the same number of digits, they are written in order of time.  Missing:
times with different numbers of digits (`C156_order_counterexample`) and inertial measurements (`C156_imu_counterexample`). -/
theorem C156_images_partial (dataset : List (Time × Img)) (hn : (dataset.map Prod.fst).Nodup) (hs : ∀ m ∈ dataset, m.1.nsecs < 10 ^ 9)
    (files : List (List Nat × Img)) (hf : files.Perm (extractImages dataset)) :
    ∃ out, createImages files = .ok out ∧ out.Perm dataset ∧
      ((∃ k, ∀ m ∈ dataset, (str m.1.secs).length = k) → out.Pairwise fun a b => a.1.total ≤ b.1.total) := by
  rw [extract_perm dataset hn hs] at hf
  have hp : (imageFiles files).Perm (dataset.map fun m => (imageName m.1, m.2)) := (List.mergeSort_perm _ _).trans hf
  obtain ⟨k, hk, hk'⟩ := names_lift hp
  have hs' : ∀ m ∈ k, m.1.nsecs < 10 ^ 9 := fun m hm => hs m (hk.subset hm)
  refine ⟨k, ?_, hk, fun ⟨n, hlen⟩ => ?_⟩
  · unfold createImages
    rw [hk']
    exact pack_map k hs'
  · have hsort : (imageFiles files).Pairwise fun a b => strLe a.1 b.1 = true :=
      List.pairwise_mergeSort (fun a b c => strLe_trans a.1 b.1 c.1) (fun a b => strLe_total a.1 b.1) files
    rw [hk', List.pairwise_map] at hsort
    refine hsort.imp_of_mem ?_
    intro a b ha hb hab
    have la : (imageName a.1).length = n + 9 := by
      unfold imageName; rw [List.length_append, pad9_length (hs' a ha), hlen a (hk.subset ha)]
    have lb : (imageName b.1).length = n + 9 := by
      unfold imageName; rw [List.length_append, pad9_length (hs' b hb), hlen b (hk.subset hb)]
    have := (strLe_iff _ _ (by rw [la, lb]) (name_lt a.1) (name_lt b.1)).1 hab
    rwa [name_value (hs' a ha), name_value (hs' b hb)] at this

/-- C156 is false of the order when a second gets one more digit: names are sorted as strings. -/
theorem C156_order_counterexample : ∃ out : List (Time × Unit),
    createImages (extractImages [(⟨999999999, 0⟩, ()), (⟨1000000000, 0⟩, ())]) = .ok out ∧
    out.map (fun m => m.1.secs) = [1000000000, 999999999] := by
  have h1 : str 999999999 = [9, 9, 9, 9, 9, 9, 9, 9, 9] := by simp [str]
  have h2 : str 1000000000 = [1, 0, 0, 0, 0, 0, 0, 0, 0, 0] := by simp [str]
  have h3 : pad9 0 = [0, 0, 0, 0, 0, 0, 0, 0, 0] := by simp [pad9, str]
  have e1 : imageName ⟨999999999, 0⟩ = [9, 9, 9, 9, 9, 9, 9, 9, 9, 0, 0, 0, 0, 0, 0, 0, 0, 0] := by
    unfold imageName; simp only [h1, h3]; rfl
  have e2 : imageName ⟨1000000000, 0⟩ = [1, 0, 0, 0, 0, 0, 0, 0, 0, 0, 0, 0, 0, 0, 0, 0, 0, 0, 0] := by
    unfold imageName; simp only [h2, h3]; rfl
  have ex : extractImages [((⟨999999999, 0⟩ : Time), ()), (⟨1000000000, 0⟩, ())] =
      [(imageName ⟨999999999, 0⟩, ()), (imageName ⟨1000000000, 0⟩, ())] :=
    extract_perm _ (by decide) (by decide)
  have hsort : imageFiles [(imageName ⟨999999999, 0⟩, ()), (imageName ⟨1000000000, 0⟩, ())] =
      [(imageName ⟨1000000000, 0⟩, ()), (imageName ⟨999999999, 0⟩, ())] := by
    rw [e1, e2]
    unfold imageFiles
    simp [List.mergeSort, List.MergeSort.Internal.splitInTwo, strLe]
  refine ⟨[(⟨1000000000, 0⟩, ()), (⟨999999999, 0⟩, ())], ?_, rfl⟩
  unfold createImages
  rw [ex, hsort]
  exact pack_map [((⟨1000000000, 0⟩ : Time), ()), (⟨999999999, 0⟩, ())] (by decide)

/-- C156 is false of inertial measurements: extracting a topic always fails, and so does packing any file that is not empty, since text is written to and
read from files opened for bytes. -/
theorem C156_imu_counterexample (fl : ℚ → ℚ) (dataset : List (Time × Meas)) (file : List (List Nat × Meas)) (h : file ≠ []) :
    extractImu fl dataset = .raise ∧ createImu file = .raise := by
  obtain ⟨r, rs, rfl⟩ := List.exists_cons_of_ne_nil h
  exact ⟨rfl, rfl⟩

/-- C156 is false of the time stamps of measurements too: they go through a `double` of seconds, and of the nanoseconds of a second in 2017
two become the same number, whatever the rounding. -/
theorem C156_imu_stamp_counterexample (fl : ℚ → ℚ) (h : Rounding fl) :
    ∃ n1 n2, n1 < 10 ^ 9 ∧ n2 < 10 ^ 9 ∧ n1 ≠ n2 ∧ imuStamp fl ⟨1500000000, n1⟩ = imuStamp fl ⟨1500000000, n2⟩ := by
  have hk : ∀ n < 10 ^ 9, ∃ k : Nat, k ≤ 2 ^ 22 ∧ fl ((1500000000 : Nat) + fl ((n : Nat) / 10 ^ 9)) = (1500000000 : Nat) + (k : ℚ) / 2 ^ 22 := by
    intro n hn
    have hx0 : 0 ≤ fl ((n : ℚ) / 10 ^ 9) := by
      have := h.mono ((0 : Nat) : ℚ) ((n : ℚ) / 10 ^ 9) (by positivity)
      rwa [h.int 0 (by norm_num), Nat.cast_zero] at this
    have hx1 : fl ((n : ℚ) / 10 ^ 9) ≤ 1 := by
      have hle : (n : ℚ) / 10 ^ 9 ≤ ((1 : Nat) : ℚ) := by
        rw [div_le_iff₀ (by positivity)]
        push_cast
        rw [one_mul]
        exact_mod_cast hn.le
      have := h.mono _ _ hle
      rwa [h.int 1 (by norm_num), Nat.cast_one] at this
    have lo : ((1500000000 : Nat) : ℚ) ≤ fl ((1500000000 : Nat) + fl ((n : ℚ) / 10 ^ 9)) := by
      have := h.mono ((1500000000 : Nat) : ℚ) ((1500000000 : Nat) + fl ((n : ℚ) / 10 ^ 9)) (by linarith)
      rwa [h.int 1500000000 (by norm_num)] at this
    have hi : fl ((1500000000 : Nat) + fl ((n : ℚ) / 10 ^ 9)) ≤ ((1500000001 : Nat) : ℚ) := by
      have := h.mono ((1500000000 : Nat) + fl ((n : ℚ) / 10 ^ 9)) ((1500000001 : Nat) : ℚ) (by push_cast; linarith)
      rwa [h.int 1500000001 (by norm_num)] at this
    obtain ⟨k, hk⟩ := h.grid ((1500000000 : Nat) + fl ((n : ℚ) / 10 ^ 9)) (by norm_num; linarith) (by norm_num; linarith)
    rw [hk] at lo hi ⊢
    rw [le_div_iff₀ (by positivity)] at lo
    rw [div_le_iff₀ (by positivity)] at hi
    have lo' : (1500000000 * 2 ^ 22 : Int) ≤ k := by exact_mod_cast lo
    have hi' : k ≤ (1500000001 * 2 ^ 22 : Int) := by exact_mod_cast hi
    refine ⟨(k - 1500000000 * 2 ^ 22).toNat, by omega, ?_⟩
    have : (((k - 1500000000 * 2 ^ 22).toNat : Int) : ℚ) = k - 1500000000 * 2 ^ 22 := by
      rw [Int.toNat_of_nonneg (by omega)]
      push_cast
      ring
    rw [Int.cast_natCast] at this
    rw [this]
    push_cast
    field_simp
    ring
  choose! g hg1 hg2 using hk
  obtain ⟨a, ha, b, hb, hab, he⟩ := Finset.exists_ne_map_eq_of_card_lt_of_maps_to (s := Finset.range (10 ^ 9)) (t := Finset.range (2 ^ 22 + 1))
    (by rw [Finset.card_range, Finset.card_range]; norm_num) (f := g)
    (fun n hn => Finset.mem_coe.2 (Finset.mem_range.2 (Nat.lt_succ_of_le (hg1 n (Finset.mem_range.1 (Finset.mem_coe.1 hn))))))
  rw [Finset.mem_range] at ha hb
  refine ⟨a, b, ha, hb, hab, ?_⟩
  unfold imuStamp
  rw [hg2 a ha, hg2 b hb, he]

/-- C156: but for the rounding, the number written for a measurement is its time in nanoseconds. -/
theorem C156_imu_stamp_partial (t : Time) : imuStamp (fun x => x) t = t.total := by
  unfold imuStamp Time.total
  rw [show ((t.secs : ℚ) + t.nsecs / 10 ^ 9) * 10 ^ 9 = ((t.secs * 10 ^ 9 + t.nsecs : Nat) : ℚ) by
    push_cast; field_simp; norm_num]
  exact Int.floor_natCast _

/-- C156: measurements with small time stamps (a simulated clock) cannot be packed at all: nanoseconds below one second have no digits left
for the seconds. -/
theorem C156_small_stamp (n : Nat) (h : n < 10 ^ 9) : stamp (str n) = .raise := by
  have hl : (str n).length - 9 = 0 := by
    have := str_length (by norm_num) h
    omega
  unfold stamp toInt
  rw [hl]
  rfl

/-! ## The hypotheses can be met -/

/-- Two images, listed in the other order. -/
example : ∃ out, createImages [(imageName ⟨1500000001, 7⟩, "b"), (imageName ⟨1500000000, 999999999⟩, "a")] = .ok out ∧
    out.Perm [(⟨1500000000, 999999999⟩, "a"), (⟨1500000001, 7⟩, "b")] := by
  obtain ⟨out, h1, h2, -⟩ := C156_images_partial [((⟨1500000000, 999999999⟩ : Time), "a"), (⟨1500000001, 7⟩, "b")] (by decide) (by decide)
    [(imageName ⟨1500000001, 7⟩, "b"), (imageName ⟨1500000000, 999999999⟩, "a")]
    (by rw [extract_perm _ (by decide) (by decide)]; exact List.Perm.swap _ _ _)
  exact ⟨out, h1, h2⟩

/-- Rounding down to a multiple of `2^(-22)` has the properties asked for. -/
example : Rounding fun x => (⌊x * 2 ^ 22⌋ : ℚ) / 2 ^ 22 where
  mono := by
    intro x y h
    have : (⌊x * 2 ^ 22⌋ : ℚ) ≤ ⌊y * 2 ^ 22⌋ := by
      exact_mod_cast Int.floor_le_floor (mul_le_mul_of_nonneg_right h (by positivity))
    exact div_le_div_of_nonneg_right this (by positivity)
  int := by
    intro n _
    have : ((n : ℚ) * 2 ^ 22) = ((n * 2 ^ 22 : Int) : ℚ) := by push_cast; ring
    rw [this, Int.floor_intCast]
    push_cast
    norm_num
  grid := fun x _ _ => ⟨⌊x * 2 ^ 22⌋, rfl⟩

end Kalibr.Bag
